import Verif.Proofs.KeyText
import Verif.Proofs.DemoDev
/-
C60: the text that the kernel cache hashes.
-/
namespace Whale.Props
open Whale Mat

/-- C60: two kernels have the same cache text – `str` of the tuple that is hashed – only if the tuples are equal: printing loses nothing. -/
theorem C60_text (k k' : Key) : keyText k = keyText k' ↔ k = k' := ⟨keyText_inj, fun h => by rw [h]⟩

/-- The strings in the tuple need no escaping, so that the text is what Python prints. -/
theorem C60_plain (k : Key) : (keyPy k).plain = true := keyPy_plain k

/-- Looking a kernel up by the digest of the text finds what looking it up by the tuple finds, in every cache, unless two of the texts involved have the same digest. -/
theorem C60_lookup {D : Type} [DecidableEq D] (md5 : List Char → D) (cache : List (Key × Kernel)) (k : Key) (h : DigestOK md5 (keyText k :: cache.map fun p => keyText p.1)) :
    (filed md5 cache).lookup (md5 (keyText k)) = cache.lookup k := by
  induction cache with
  | nil => rfl
  | cons p cache ih =>
    have ih := ih (fun s hs t ht he => h s (by simp at hs ⊢; tauto) t (by simp at ht ⊢; tauto) he)
    unfold filed at ih ⊢
    rw [List.map_cons, List.lookup_cons, ih, List.lookup_cons]
    by_cases he : k = p.1
    · simp [he]
    · have : md5 (keyText k) ≠ md5 (keyText p.1) := fun hd => he (keyText_inj (h _ (by simp) _ (by simp) hd))
      rw [beq_eq_false_iff_ne.mpr this, beq_eq_false_iff_ne.mpr he]

/-- The session `a = arange(3); s = a + a; p = -s.sum(); s.materialize(); p.materialize()`. -/
def keyDemo : List Key := (Demo.after [.arange 3, .bin .add 0 0, .sum 1 .none false, .un .neg 2, .materialize 1, .materialize 3]).cache.map (·.1)

/-- The three texts that this session hashes, as Python prints them. -/
example : keyDemo.map keyText = [
    "((('i', 3),), (3,), 'int64', ('Bin', 'Add', ('Buf', 0, (3,), (1,), 0, 'int64', (('Idx', 'i', 3),)), ('Buf', 0, (3,), (1,), 0, 'int64', (('Idx', 'i', 3),))), ((('i', 3, 'Spatial', ('Parallel',)),), ()))".toList,
    "((), (), 'int64', ('Red', 'Sum', (('ri', 3),), ('Bin', 'Add', ('Buf', 0, (3,), (1,), 0, 'int64', (('Idx', 'ri', 3),)), ('Buf', 0, (3,), (1,), 0, 'int64', (('Idx', 'ri', 3),)))), ((('ri', 3, 'Reduce', ('Sequential',)),), ()))".toList,
    "((), (), 'int64', ('Un', 'Neg', ('Fnc', ('Red', 'Sum', (('ri', 3),), ('Bin', 'Add', ('Buf', 0, (3,), (1,), 0, 'int64', (('Idx', 'ri', 3),)), ('Buf', 0, (3,), (1,), 0, 'int64', (('Idx', 'ri', 3),)))), ())), ((), ()))".toList] := by
  decide +kernel

/-- The hypothesis of `C60_lookup` is met in that session, for instance by the digest "length of the text". -/
example : DigestOK List.length (keyDemo.map keyText) := by unfold DigestOK; decide +kernel

end Whale.Props
