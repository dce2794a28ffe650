import Verif.Proofs.Launch
import Verif.Proofs.KernelGpu
/-
C36: where the strict arithmetic succeeds, Python's and C's agree with it.
-/
namespace Whale
open Algo Codegen Kern
variable {V : Type}

/-- Where the first arithmetic has a result, the second has the same. -/
def Weaker (st ar : IntArith) : Prop := ∀ op a b v, iarith st op a b = some v → iarith ar op a b = some v

theorem iarith_strict {op : Ops} {a b v : Int} (h : iarith .strict op a b = some v) {ar : IntArith} (hl : ar.lim = none) : iarith ar op a b = some v := by
  simp only [iarith] at h
  split at h
  · rename_i he
    cases ar <;> simp only [iarith]
    · rw [he]; exact h
    · exact h
    · rw [if_pos he]; exact h
    · cases hl
  · cases h

theorem Weaker.strict {ar : IntArith} (hl : ar.lim = none) : Weaker .strict ar := fun _ _ _ _ h => iarith_strict h hl

/-- Results within the limit are right, and within the limit. -/
theorem iarith_bounded {m : Int} {op : Ops} {a b v : Int} (h : iarith (.bounded m) op a b = some v) : iarith .strict op a b = some v ∧ -m ≤ v ∧ v ≤ m := by
  simp only [iarith] at h ⊢
  split at h
  · rename_i he
    rw [if_pos he]
    rw [Option.filter_eq_some_iff] at h
    exact ⟨h.1, by simpa using h.2⟩
  · cases h

theorem Weaker.bounded {m : Int} {ar : IntArith} (hl : ar.lim = none) : Weaker (.bounded m) ar := fun _ _ _ _ h => iarith_strict (iarith_bounded h).1 hl

theorem evalKI_weaker {σ : KEnv V} {st ar : IntArith} (hw : Weaker st ar) : ∀ {e : KI} {v : Int}, evalKI st σ e = some v → evalKI ar σ e = some v
  | .var x, v, h => h
  | .lit c, v, h => h
  | .bin op l r, v, h => by
    simp only [evalKI, Option.bind_eq_bind, Option.bind_eq_some_iff] at h ⊢
    obtain ⟨a, ha, b, hb, h⟩ := h
    exact ⟨a, evalKI_weaker hw ha, b, evalKI_weaker hw hb, hw _ _ _ _ h⟩

/-- The machine with another integer arithmetic. -/
abbrev Machine.withArith (m : Machine V) (ar : IntArith) : Machine V := { m with ar := ar }

theorem evalKD_weaker {m : Machine V} {σ : KEnv V} {st ar : IntArith} (hw : Weaker st ar) : ∀ {e : KD} {v : V}, evalKD (m.withArith st) σ e = some v → evalKD (m.withArith ar) σ e = some v
  | .var x, v, h => h
  | .lit c, v, h => h
  | .zero c, v, h => h
  | .un op e, v, h => by
    simp only [evalKD, Option.bind_eq_bind, Option.bind_eq_some_iff] at h ⊢
    obtain ⟨a, ha, h⟩ := h
    exact ⟨a, evalKD_weaker hw ha, h⟩
  | .bin op l r, v, h => by
    simp only [evalKD, Option.bind_eq_bind, Option.bind_eq_some_iff] at h ⊢
    obtain ⟨a, ha, b, hb, h⟩ := h
    exact ⟨a, evalKD_weaker hw ha, b, evalKD_weaker hw hb, h⟩
  | .read a idx, v, h => by
    simp only [evalKD, Option.bind_eq_bind, Option.bind_eq_some_iff] at h ⊢
    obtain ⟨l, hl, i, hi, h⟩ := h
    exact ⟨l, hl, i, evalKI_weaker hw hi, h⟩

theorem foldlM_mono {α β : Type} {f g : β → α → Option β} (h : ∀ b a c, f b a = some c → g b a = some c) : ∀ {l : List α} {b c : β},
    l.foldlM f b = some c → l.foldlM g b = some c
  | [], b, c, e => e
  | a :: l, b, c, e => by
    rw [List.foldlM_cons, Option.bind_eq_bind, Option.bind_eq_some_iff] at e ⊢
    obtain ⟨d, h1, h2⟩ := e
    exact ⟨d, h b a d h1, foldlM_mono h h2⟩

theorem exec_weaker {m : Machine V} {st ar : IntArith} (hw : Weaker st ar) : ∀ {s : Stmt} {σ : KEnv V} {r : St V}, exec (m.withArith st) s σ = some r → exec (m.withArith ar) s σ = some r
  | .skip, σ, r, h => h
  | .seq s t, σ, r, h => by
    simp only [exec, Option.bind_eq_bind, Option.bind_eq_some_iff] at h ⊢
    obtain ⟨r1, h1, h⟩ := h
    refine ⟨r1, exec_weaker hw h1, ?_⟩
    split at h
    · rename_i hr; rw [if_pos hr]; exact h
    · rename_i hr
      rw [if_neg hr]
      simp only [Option.bind_eq_some_iff] at h ⊢
      obtain ⟨r2, h2, h⟩ := h
      exact ⟨r2, exec_weaker hw h2, h⟩
  | .initI x e, σ, r, h => by
    simp only [exec] at h ⊢
    split at h
    · cases h
    · rename_i hx
      rw [if_neg hx]
      simp only [Option.bind_eq_bind, Option.bind_eq_some_iff] at h ⊢
      obtain ⟨v, hv, h⟩ := h
      exact ⟨v, evalKI_weaker hw hv, h⟩
  | .initD _ x e, σ, r, h => by
    simp only [exec] at h ⊢
    split at h
    · cases h
    · rename_i hx
      rw [if_neg hx]
      simp only [Option.bind_eq_bind, Option.bind_eq_some_iff] at h ⊢
      obtain ⟨v, hv, h⟩ := h
      exact ⟨v, evalKD_weaker hw hv, h⟩
  | .set x e, σ, r, h => by
    simp only [exec] at h ⊢
    split at h
    · simp only [Option.bind_eq_bind, Option.bind_eq_some_iff] at h ⊢
      obtain ⟨v, hv, h⟩ := h
      exact ⟨v, evalKD_weaker hw hv, h⟩
    · cases h
  | .store idx e, σ, r, h => by
    simp only [exec, Option.bind_eq_bind, Option.bind_eq_some_iff] at h ⊢
    obtain ⟨i, hi, v, hv, h⟩ := h
    exact ⟨i, evalKI_weaker hw hi, v, evalKD_weaker hw hv, h⟩
  | .loop _ x n body, σ, r, h => by
    simp only [exec] at h ⊢
    split at h
    · cases h
    · rename_i hx
      rw [if_neg hx]
      simp only [Option.bind_eq_bind] at h ⊢
      refine foldlM_mono ?_ h
      intro s0 i c hc
      split at hc
      · rename_i hr; rw [if_pos hr]; exact hc
      · rename_i hr
        rw [if_neg hr]
        simp only [Option.bind_eq_some_iff] at hc ⊢
        obtain ⟨r1, h1, hc⟩ := hc
        exact ⟨r1, exec_weaker hw h1, hc⟩
  | .ite c t f, σ, r, h => by
    simp only [exec, Option.bind_eq_bind, Option.bind_eq_some_iff] at h ⊢
    obtain ⟨b, hb, h⟩ := h
    refine ⟨b, evalKI_weaker hw hb, ?_⟩
    split at h
    · rename_i hc
      rw [if_pos hc]
      obtain ⟨r1, h1, h⟩ := Option.bind_eq_some_iff.1 h
      exact Option.bind_eq_some_iff.2 ⟨r1, exec_weaker hw h1, h⟩
    · rename_i hc
      rw [if_neg hc]
      obtain ⟨r1, h1, h⟩ := Option.bind_eq_some_iff.1 h
      exact Option.bind_eq_some_iff.2 ⟨r1, exec_weaker hw h1, h⟩
  | .guardRet c, σ, r, h => by
    simp only [exec, Option.bind_eq_bind, Option.bind_eq_some_iff] at h ⊢
    obtain ⟨b, hb, h⟩ := h
    exact ⟨b, evalKI_weaker hw hb, h⟩
  | .gpuIdx x th d, σ, r, h => h

theorem exec_strict {m : Machine V} {ar : IntArith} (hl : ar.lim = none) {s : Stmt} {σ : KEnv V} {r : St V} (h : exec (m.withArith .strict) s σ = some r) :
    exec (m.withArith ar) s σ = some r := exec_weaker (.strict hl) h

/-- GPU kernels have no concurrent loops. -/
theorem kernel_noPar [Lim] {g : Graph V} {t : Tbl} {F : Func} {a : Nat} (hE : EntryOK g a F) {sch : Schedule} {K : Kernel} {n n' : Nat}
    (hs : Sched.schedule true F = .ok sch) (hK : codegen g t F sch (argsOf F) n = .ok (K, n')) : noPar K.body = true := by
  unfold codegen at hK
  obtain ⟨⟨s, k, m⟩, hg, hK⟩ := except_bind_ok hK
  simp only [pure, Except.pure, Except.ok.injEq, Prod.mk.injEq] at hK
  obtain ⟨hK, _⟩ := hK
  rw [← hK]
  have hsi : ∀ l, noPar (splitInits l) = true := by
    intro l; induction l with
    | nil => rfl
    | cons a l ih => simpa [splitInits, noPar] using ih
  have hsg : ∀ l, noPar (splitGuards l) = true := by
    intro l; induction l with
    | nil => rfl
    | cons a l ih => unfold splitGuards; split <;> simpa [noPar] using ih
  refine genLoops_noPar ?_ (by simp only [noPar, hsi, hsg, genD_noPar hg, Bool.and_self])
  rw [show Sched.schedule true F = Sched.gpu (Sched.init F) from rfl] at hs
  have hnames : F.outLoops.map (·.name) = (List.range (g.ndim a)).map (VName.loop false) := by rw [hE.loops, outLoops_names]
  by_cases h0 : F.outLoops.length = 0
  · have hol : F.outLoops = [] := List.eq_nil_of_length_eq_zero h0
    simp only [Sched.gpu, spatials_init, hol, List.map_nil, pure, Except.pure, Except.ok.injEq] at hs
    subst hs
    intro l hl
    simp only [Sched.init, hol, List.map_nil, List.nil_append] at hl
    obtain ⟨_, _, rfl⟩ := List.mem_map.1 hl; rfl
  · obtain ⟨sch', vs, z, pre, rd, d, hsch, hf⟩ := gpu_form (F := F) h0 (by rw [hnames]; exact loopNames_nodup _) (by
      rw [hE.loops]; intro l hl; exact (mem_outLoops hl).2)
    rw [hsch] at hs; cases hs
    intro l hl
    rw [hf.loops] at hl
    rcases List.mem_append.1 hl with h | h
    · exact hf.npar l h
    · rcases List.mem_append.1 h with h | h
      · simp only [splitLoops, List.mem_cons, List.not_mem_nil, or_false] at h
        rcases h with rfl | rfl <;> rfl
      · rw [hf.redSeq l h]; rfl

end Whale
