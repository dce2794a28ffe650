import Verif.Proofs.Str
import Verif.Props.EndToEnd
/-
C61: printing an array.
-/
namespace Whale.Props
open Whale Hist Mat
variable {V : Type}

/-- C61: in every reachable state, printing an array does not raise.  If its data are in host memory the text is that of the list which `tolist()` returns (and `tolist()` would change
nothing); otherwise it is the description: operation, shape, strides, offset and dtype, no data. -/
theorem C61_total {b : Backend V} (hb : Faithful b) {w : World V} (hr : Reachable b w) {a : Nat} (ha : a < w.g.length) (num : V → List Char) :
    (∃ l, step b w (.tolist a) = .ok (.list l, w) ∧ str num w a = .ok (listText num l)) ∨
    (cpuBuf w (base w.g a) = none ∧ str num w a = .ok (describe w a)) := by
  have hi := (hr.inv hb).winv
  cases hd : cpuBuf w (base w.g a) with
  | some data =>
    obtain ⟨l, h1, h2⟩ := str_host hi ha hd num
    exact .inl ⟨l, by rw [step_tolist ha, h1]; rfl, h2⟩
  | none => exact .inr ⟨rfl, by unfold str; rw [hd]; rfl⟩

/-- After `a.tolist()` has returned `l`, printing `a` shows `l` (on every backend). -/
theorem C61_read {b : Backend V} (hb : Faithful b) {w : World V} (hr : Reachable b w) {a : Nat} {l : Nested V} {w1 : World V} (h : step b w (.tolist a) = .ok (.list l, w1))
    (num : V → List Char) : str num w1 a = .ok (listText num l) := by
  have ha : a < w.g.length := by
    unfold step at h
    split at h
    · rename_i hin; exact hin a (by simp [Call.arrays])
    · cases h
  have hr1 : Reachable b w1 := hr.call (c := .tolist a) (.inr trivial) (by unfold next; rw [h])
  have hrun : Runs b w1 w1 := .refl
  obtain ⟨w3, h3⟩ := C26_stable hb hr h hrun
  rw [step_tolist ha] at h
  cases ht : tolist b w a with
  | error e => rw [ht] at h; cases h
  | ok p =>
    rw [ht] at h; cases h
    obtain ⟨data, hd⟩ := tolist_host (l := p.1) (w1 := p.2) ht
    have ha1 : a < p.2.g.length := by
      unfold step at h3
      split at h3
      · rename_i hin; exact hin a (by simp [Call.arrays])
      · cases h3
    obtain ⟨l', h1, h2⟩ := str_host (hr1.inv hb).winv ha1 hd num
    rw [step_tolist ha1, h1] at h3
    cases h3
    exact h2

/-- On a CPU backend, printing an array after `materialize()` shows the value that the reference semantics gives the array. -/
theorem C61_value {b : Backend V} (hb : Faithful b) (hg : b.isGpu = false) {w : World V} {H : List (Nat × Tensor V)} (h : Tracks b w H) {a : Nat} {T : Tensor V} (ha : (a, T) ∈ H)
    (hno : NoOffsetReshape w.g a) (hargs : ArgsOK b w (.materialize a)) (num : V → List Char) :
    ∃ w1, step b w (.materialize a) = .ok (.unit, w1) ∧ str num w1 a = .ok (listText num T.toNested) := by
  obtain ⟨w1, h1, h2⟩ := (C19_compiler_correct hb h ha).computes hno w .refl hargs
  refine ⟨w1, h1, ?_⟩
  obtain ⟨w4, h4⟩ := h2 w1 .refl
  have hr1 : Reachable b w1 := h.reachable.call (.inr hargs) (by unfold next; rw [h1])
  have ha1 : a < w1.g.length := by
    unfold step at h4
    split at h4
    · rename_i hin; exact hin a (by simp [Call.arrays])
    · cases h4
  rcases C61_total hb hr1 ha1 num with ⟨l, h5, h6⟩ | ⟨h5, _⟩
  · rw [h5] at h4; cases h4; exact h6
  · rw [step_tolist ha1] at h4
    have : tolist b w1 a = .error .attrError := by
      unfold tolist ensureCpu; rw [h5]; simp [hg, bind, Except.bind]
    rw [this] at h4; cases h4

/-- The text of an array of integers determines its elements and, unless it has none, its shape. -/
theorem C61_readable (x x' : Nested Int) (h : listText intText x = listText intText x') : x = x' :=
  (listText_inj readable_int x x' [] [] (by simp [Delim]) (by simp [Delim]) (by simpa using h)).1

/-- A materialized product and a view of it. -/
def strDemo : List (Call Int) := [.array Demo.m23, .bin .mul 0 0, .T 1, .materialize 1]

example : Reachable Demo.py (Demo.after strDemo) ∧ str intText (Demo.after strDemo) 2 = .ok "[[1, 16], [4, 25], [9, 36]]".toList ∧
    str intText (Demo.after (strDemo.take 3)) 2 = .ok "Transpose shape=(3, 2) strides=(1, 3) offset=0 dtype=int64 cpu=None dev=None".toList :=
  ⟨Demo.reach (by decide +kernel), by decide +kernel⟩

end Whale.Props
