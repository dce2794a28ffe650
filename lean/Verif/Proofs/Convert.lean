import Verif.Proofs.MkExpr2
import Verif.Proofs.Dfs
/-
Conversion of a graph: function table, reference counts, fusion, ordering.
-/
namespace Whale
open Algo
variable {V : Type} [Lim]

theorem Reach.trans {g : Graph V} {a b c : Nat} (h : Reach g a b) (k : Reach g b c) : Reach g a c := by
  induction k with
  | refl => exact h
  | step _ hx ih => exact .step ih hx

theorem NoScalarReshape.input {g : Graph V} {a x : Nat} (h : NoScalarReshape g a) (hx : x ∈ (g.ctx a).inputs) : NoScalarReshape g x :=
  fun i hi => h i ((Reach.step .refl hx).trans hi)

/-! ### functions referenced by a freshly made expression are the inputs -/

theorem mkExpr_funcRefs {g : Graph V} {a : Nat} {e : DExpr} (h : mkExpr g a = .ok e) : ∀ f ∈ funcRefs e, f ∈ (g.ctx a).inputs := by
  unfold mkExpr at h
  cases hc : g.ctx a <;> simp only [hc, Ctx.inputs] at h ⊢
  case const => simp only [pure, Except.pure, Except.ok.injEq] at h; subst h; simp [funcRefs]
  case unary => simp only [pure, Except.pure, Except.ok.injEq] at h; subst h; simp [funcRefs]
  case binary => simp only [pure, Except.pure, Except.ok.injEq] at h; subst h; simp [funcRefs]
  case contiguous => simp only [pure, Except.pure, Except.ok.injEq] at h; subst h; simp [funcRefs]
  case sum x axis kd =>
    unfold reduceExpr at h
    simp only [bind, Except.bind] at h
    split at h
    · simp at h
    · simp only [pure, Except.pure, Except.ok.injEq] at h; subst h; simp [funcRefs]
  case pad x dim b c =>
    unfold padExpr at h
    simp only [bind, Except.bind] at h
    split at h
    · simp at h
    · split at h
      · simp at h
      · simp only [pure, Except.pure, Except.ok.injEq] at h; subst h; simp [funcRefs]
  case dilate x dim st =>
    unfold dilateExpr at h
    simp only [bind, Except.bind] at h
    split at h
    · simp at h
    · simp only [pure, Except.pure, Except.ok.injEq] at h; subst h; simp [funcRefs]
  all_goals
    simp only [bind, Except.bind] at h
    split at h
    · simp at h
    · simp only [pure, Except.pure, Except.ok.injEq] at h; subst h; simp [funcRefs]

/-! ### arr_to_func -/

/-- Every entry is the freshly made function of an array below `g.length`; inputs have entries. -/
structure Fresh (g : Graph V) (t : Tbl) : Prop where
  entry : ∀ i F, t i = some F → i < g.length ∧ NoScalarReshape g i ∧ ∃ e, mkExpr g i = .ok e ∧ F = mkFunc g i e
  closed : ∀ i F, t i = some F → ∀ x ∈ (g.ctx i).inputs, (t x).isSome

theorem Fresh.empty (g : Graph V) : Fresh g Tbl.empty := ⟨by simp [Tbl.empty], by simp [Tbl.empty]⟩

theorem Tbl.set_same (t : Tbl) (i : Nat) (F : Func) : t.set i F i = some F := by simp [Tbl.set]
theorem Tbl.set_ne (t : Tbl) {i j : Nat} (F : Func) (h : j ≠ i) : t.set i F j = t j := by simp [Tbl.set, h]

theorem arrToFunc_ok {g : Graph V} (h : WF g) (fuel : Nat) : ∀ a t, a < fuel → a < g.length → NoScalarReshape g a → Fresh g t →
    ∃ t', arrToFunc g fuel a t = .ok t' ∧ Fresh g t' ∧ (∀ i F, t i = some F → t' i = some F) ∧ (t' a).isSome ∧
      ∀ i, (t' i).isSome → (t i).isSome ∨ Reach g a i := by
  induction fuel with
  | zero => intro a t h; omega
  | succ fuel ih =>
    intro a t hf ha hns ht
    unfold arrToFunc
    cases hta : t a with
    | some F => exact ⟨t, rfl, ht, fun _ _ h => h, by simp [hta], fun i hi => Or.inl hi⟩
    | none =>
      simp only
      have hfold : ∀ (xs : List Nat) (t : Tbl), (∀ x ∈ xs, x < fuel ∧ x < g.length ∧ NoScalarReshape g x ∧ Reach g a x) → Fresh g t →
          ∃ t', xs.foldlM (fun m x => arrToFunc g fuel x m) t = .ok t' ∧ Fresh g t' ∧ (∀ i F, t i = some F → t' i = some F) ∧
            (∀ x ∈ xs, (t' x).isSome) ∧ ∀ i, (t' i).isSome → (t i).isSome ∨ Reach g a i := by
        intro xs
        induction xs with
        | nil => intro t _ ht; exact ⟨t, rfl, ht, fun _ _ h => h, by simp, fun i hi => Or.inl hi⟩
        | cons x xs ihx =>
          intro t hxs ht
          obtain ⟨h1, h2, h3, h4⟩ := hxs x (by simp)
          obtain ⟨t1, e1, f1, m1, s1, r1⟩ := ih x t h1 h2 h3 ht
          obtain ⟨t2, e2, f2, m2, s2, r2⟩ := ihx t1 (fun y hy => hxs y (by simp [hy])) f1
          refine ⟨t2, by rw [List.foldlM_cons, e1]; exact e2, f2, fun i F hi => m2 i F (m1 i F hi), ?_, ?_⟩
          · intro y hy
            rcases List.mem_cons.1 hy with rfl | hy
            · obtain ⟨F, hF⟩ := Option.isSome_iff_exists.1 s1
              rw [m2 _ _ hF]; rfl
            · exact s2 y hy
          · intro i hi
            rcases r2 i hi with h | h
            · rcases r1 i h with h | h
              · exact Or.inl h
              · exact Or.inr (h4.trans h)
            · exact Or.inr h
      have hlt := h.inputs_lt ha
      obtain ⟨t1, e1, f1, m1, s1, r1⟩ := hfold (g.ctx a).inputs t (fun x hx =>
        ⟨by have := hlt x hx; omega, by have := hlt x hx; omega, hns.input hx, .step .refl hx⟩) ht
      obtain ⟨e, he, _, _⟩ := mkExpr_ok h ha (hns a .refl)
      refine ⟨t1.set a (mkFunc g a e), by rw [e1]; simp only [bind, Except.bind, he]; rfl, ⟨?_, ?_⟩, ?_, by simp [Tbl.set_same], ?_⟩
      · intro i F hi
        by_cases hia : i = a
        · subst hia
          rw [Tbl.set_same, Option.some.injEq] at hi
          exact ⟨ha, hns, e, he, hi.symm⟩
        · rw [Tbl.set_ne _ _ hia] at hi; exact f1.entry i F hi
      · intro i F hi x hx
        by_cases hxa : x = a
        · subst hxa; simp [Tbl.set_same]
        · rw [Tbl.set_ne _ _ hxa]
          by_cases hia : i = a
          · subst hia; exact s1 x hx
          · rw [Tbl.set_ne _ _ hia] at hi; exact f1.closed i F hi x hx
      · intro i F hi
        by_cases hia : i = a
        · subst hia; rw [hta] at hi; simp at hi
        · rw [Tbl.set_ne _ _ hia]; exact m1 i F hi
      · intro i hi
        by_cases hia : i = a
        · subst hia; exact Or.inr .refl
        · rw [Tbl.set_ne _ _ hia] at hi; exact r1 i hi

/-! ### semantic invariant of function tables -/

/-- An entry of the function table of `g`: it is well-formed and computes the meaning of its array. -/
structure EntryOK (g : Graph V) (i : Nat) (F : Func) : Prop where
  lt : i < g.length
  loops : F.outLoops = outLoops g i
  shape : F.outShape = g.shape i
  dtype : F.outDtype = g.dtype i
  buffer : F.outBuffer = i
  wf : RootWF g i F.expr
  sem : ∀ A idx, ValidIdx (g.shape i) idx → evalR A (denRd A g) (outEnv g i idx) F.expr = some ((den A g i).get idx)

structure TblOK (g : Graph V) (t : Tbl) : Prop where
  entry : ∀ i F, t i = some F → EntryOK g i F
  refs : ∀ i F, t i = some F → ∀ f ∈ funcRefs F.expr, (t f).isSome

theorem Fresh.tblOK {g : Graph V} (h : WF g) {t : Tbl} (ht : Fresh g t) (hS : ∀ i, (t i).isSome → Small g i := by intros; exact small_none) : TblOK g t := by
  refine ⟨fun i F hi => ?_, fun i F hi f hf => ?_⟩
  · obtain ⟨hl, hns, e, he, rfl⟩ := ht.entry i F hi
    obtain ⟨e', he', hw, hs⟩ := mkExpr_ok h hl (hns i .refl)
    rw [he] at he'
    cases he'
    exact ⟨hl, rfl, rfl, rfl, rfl, hw, hs (hS i (by rw [hi]; rfl))⟩
  · obtain ⟨hl, hns, e, he, rfl⟩ := ht.entry i F hi
    exact ht.closed i _ hi f (mkExpr_funcRefs he f hf)

theorem DWF.refs_lt {g : Graph V} {S : List LoopIndex} {lvl : Nat} {e : DExpr} (h : DWF g S lvl e) : ∀ f ∈ funcRefs e, f < lvl := by
  induction e with
  | const c => simp [funcRefs]
  | un op e ih => exact ih h.2
  | bin op l r ihl ihr =>
    intro f hf
    rcases List.mem_append.1 hf with hf | hf
    · exact ihl h.2.1 f hf
    · exact ihr h.2.2 f hf
  | tern op c t f iht ihf =>
    intro x hx
    rcases List.mem_append.1 hx with hx | hx
    · exact iht h.2.2.1 x hx
    · exact ihf h.2.2.2 x hx
  | red => exact h.elim
  | func f idx => simp only [funcRefs, List.mem_singleton, forall_eq]; exact h.1
  | buf => simp [funcRefs]

theorem RootWF.refs_lt {g : Graph V} {a : Nat} {e : DExpr} (h : RootWF g a e) : ∀ f ∈ funcRefs e, f < a := by
  cases e with
  | red op e rs => exact DWF.refs_lt (e := e) h.2.2
  | _ => exact DWF.refs_lt (g := g) (S := outLoops g a) h

/-! ### count_refs -/

structure Counted (t : Tbl) (rc rc' : RC) : Prop where
  mono : ∀ i, rc i ≤ rc' i
  new : ∀ i, rc i = 0 → rc' i ≠ 0 → ∃ F, t i = some F ∧ ∀ f ∈ funcRefs F.expr, rc' f ≠ 0

theorem Counted.refl (t : Tbl) (rc : RC) : Counted t rc rc := ⟨fun _ => Nat.le_refl _, fun _ h h' => absurd h h'⟩

theorem Counted.trans {t : Tbl} {rc rc1 rc2 : RC} (h1 : Counted t rc rc1) (h2 : Counted t rc1 rc2) : Counted t rc rc2 := by
  refine ⟨fun i => Nat.le_trans (h1.mono i) (h2.mono i), fun i h0 h => ?_⟩
  by_cases h3 : rc1 i = 0
  · exact h2.new i h3 h
  · obtain ⟨F, hF, hf⟩ := h1.new i h0 h3
    exact ⟨F, hF, fun f hf' => by have := h2.mono f; have := hf f hf'; omega⟩

theorem countE_ok {t : Tbl} {visit : Nat → RC → Except Err RC} {e : DExpr}
    (hv : ∀ f ∈ funcRefs e, ∀ rc, ∃ rc', visit f rc = .ok rc' ∧ Counted t rc rc' ∧ ∃ F, t f = some F ∧ ∀ x ∈ funcRefs F.expr, rc' x ≠ 0) (rc : RC) :
    ∃ rc', countE visit e rc = .ok rc' ∧ Counted t rc rc' ∧ ∀ f ∈ funcRefs e, rc' f ≠ 0 := by
  induction e generalizing rc with
  | const c => exact ⟨rc, rfl, .refl _ _, by simp [funcRefs]⟩
  | buf n i => exact ⟨rc, rfl, .refl _ _, by simp [funcRefs]⟩
  | un op e ih => exact ih hv rc
  | red op e rs ih => exact ih hv rc
  | bin op l r ihl ihr =>
    obtain ⟨rc1, e1, c1, p1⟩ := ihl (fun f hf => hv f (List.mem_append_left _ hf)) rc
    obtain ⟨rc2, e2, c2, p2⟩ := ihr (fun f hf => hv f (List.mem_append_right _ hf)) rc1
    refine ⟨rc2, by simp only [countE, e1]; exact e2, c1.trans c2, fun f hf => ?_⟩
    rcases List.mem_append.1 hf with hf | hf
    · have := p1 f hf; have := c2.mono f; omega
    · exact p2 f hf
  | tern op c l r ihl ihr =>
    obtain ⟨rc1, e1, c1, p1⟩ := ihl (fun f hf => hv f (List.mem_append_left _ hf)) rc
    obtain ⟨rc2, e2, c2, p2⟩ := ihr (fun f hf => hv f (List.mem_append_right _ hf)) rc1
    refine ⟨rc2, by simp only [countE, e1]; exact e2, c1.trans c2, fun f hf => ?_⟩
    rcases List.mem_append.1 hf with hf | hf
    · have := p1 f hf; have := c2.mono f; omega
    · exact p2 f hf
  | func f idx =>
    simp only [countE, funcRefs, List.mem_singleton, forall_eq, if_true] at hv ⊢
    have hmono : ∀ i, rc i ≤ (fun x => if x = f then rc x + 1 else rc x : RC) i := by
      intro i; simp only; split <;> omega
    have hne : ∀ i, i ≠ f → (fun x => if x = f then rc x + 1 else rc x : RC) i = rc i := by
      intro i hi; simp [hi]
    generalize hrc1 : (fun x => if x = f then rc x + 1 else rc x : RC) = rc1 at hmono hne ⊢
    have hrf : rc1 f = rc f + 1 := by rw [← hrc1]; simp
    rw [← hrf]
    split
    · rename_i h1
      obtain ⟨rc', e1, c1, F, hF, p1⟩ := hv rc1
      refine ⟨rc', e1, ⟨fun i => Nat.le_trans (hmono i) (c1.mono i), fun i h0 hi => ?_⟩, by have := c1.mono f; omega⟩
      by_cases hif : i = f
      · subst hif; exact ⟨F, hF, p1⟩
      · exact c1.new i (by rw [hne i hif]; exact h0) hi
    · refine ⟨rc1, rfl, ⟨hmono, fun i h0 hi => ?_⟩, by omega⟩
      by_cases hif : i = f
      · subst hif; omega
      · rw [hne i hif] at hi; exact absurd h0 hi

theorem countRefs_ok {g : Graph V} {t : Tbl} (ht : TblOK g t) (fuel : Nat) : ∀ e lvl rc, lvl < fuel → (∀ f ∈ funcRefs e, f < lvl ∧ (t f).isSome) →
    ∃ rc', countRefs t fuel e rc = .ok rc' ∧ Counted t rc rc' ∧ ∀ f ∈ funcRefs e, rc' f ≠ 0 := by
  induction fuel with
  | zero => intro e lvl rc h; omega
  | succ fuel ih =>
    intro e lvl rc hl hr
    unfold countRefs
    apply countE_ok
    intro f hf rc
    obtain ⟨h1, h2⟩ := hr f hf
    obtain ⟨F, hF⟩ := Option.isSome_iff_exists.1 h2
    have hE := ht.entry f F hF
    obtain ⟨rc', e1, c1, p1⟩ := ih F.expr f rc (by omega) (fun x hx => ⟨RootWF.refs_lt hE.wf x hx, ht.refs f F hF x hx⟩)
    exact ⟨rc', by simp only [hF]; exact e1, c1, F, hF, p1⟩

end Whale
