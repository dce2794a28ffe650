import Verif.Proofs.Topo
/-
Which functions remain after fusion: never constants, and otherwise only reductions and functions referenced
more than once.
-/
namespace Whale
open Algo
variable {V : Type}

/-- Invariant of fusion: `D` are the functions kept so far. -/
structure FInv (g : Graph V) (rc : RC) (t : Tbl) (D : Nat → Prop) : Prop where
  konst : ∀ i F, t i = some F → g.ctx i = .const → isBufferExpr F.expr = true
  nonconst : ∀ i, D i → g.ctx i ≠ .const
  kept : ∀ i F, D i → t i = some F → (hasReduce F.expr = true ∨ rc i ≠ 1) ∧ ∀ x ∈ funcRefs F.expr, D x

/-- Result of fusing `e`. -/
structure FRes (g : Graph V) (rc : RC) (D : Nat → Prop) (e e' : DExpr) (t' : Tbl) : Prop where
  red : hasReduce e = true → hasReduce e' = true
  ex : ∃ D', (∀ i, D i → D' i) ∧ FInv g rc t' D' ∧ ∀ f ∈ funcRefs e', D' f

theorem fuseE_inv {g : Graph V} {rc : RC} {visit : Nat → List IExpr → Tbl → Except Err (DExpr × Tbl)}
    (hv : ∀ f idx t e' t' D, visit f idx t = .ok (e', t') → FInv g rc t D → FRes g rc D (.func f idx) e' t')
    {e e' : DExpr} {t t' : Tbl} {D : Nat → Prop} (h : fuseE visit e t = .ok (e', t')) (ht : FInv g rc t D) : FRes g rc D e e' t' := by
  induction e generalizing t e' t' D with
  | const c => cases h; exact ⟨fun h => h, D, fun _ h => h, ht, by simp [funcRefs]⟩
  | buf n idx => cases h; exact ⟨fun h => h, D, fun _ h => h, ht, by simp [funcRefs]⟩
  | un op e ih =>
    simp only [fuseE, bind, Except.bind] at h
    cases h1 : fuseE visit e t with
    | error x => simp [h1] at h
    | ok p =>
      obtain ⟨e1, t1⟩ := p
      simp only [h1, pure, Except.pure, Except.ok.injEq, Prod.mk.injEq] at h
      obtain ⟨rfl, rfl⟩ := h
      have := ih h1 ht
      exact ⟨this.red, this.ex⟩
  | red op e rs ih =>
    simp only [fuseE, bind, Except.bind] at h
    cases h1 : fuseE visit e t with
    | error x => simp [h1] at h
    | ok p =>
      obtain ⟨e1, t1⟩ := p
      simp only [h1, pure, Except.pure, Except.ok.injEq, Prod.mk.injEq] at h
      obtain ⟨rfl, rfl⟩ := h
      have := ih h1 ht
      exact ⟨fun _ => rfl, this.ex⟩
  | bin op l r ihl ihr =>
    simp only [fuseE, bind, Except.bind] at h
    cases h1 : fuseE visit l t with
    | error x => simp [h1] at h
    | ok p =>
      obtain ⟨e1, t1⟩ := p
      simp only [h1] at h
      cases h2 : fuseE visit r t1 with
      | error x => simp [h2] at h
      | ok p =>
        obtain ⟨e2, t2⟩ := p
        simp only [h2, pure, Except.pure, Except.ok.injEq, Prod.mk.injEq] at h
        obtain ⟨rfl, rfl⟩ := h
        have r1 := ihl h1 ht
        obtain ⟨D1, s1, i1, f1⟩ := r1.ex
        have r2 := ihr h2 i1
        obtain ⟨D2, s2, i2, f2⟩ := r2.ex
        refine ⟨?_, D2, fun i hi => s2 i (s1 i hi), i2, ?_⟩
        · simp only [hasReduce, Bool.or_eq_true]
          exact Or.imp r1.red r2.red
        · intro f hf
          rcases List.mem_append.1 hf with hf | hf
          · exact s2 f (f1 f hf)
          · exact f2 f hf
  | tern op c l r ihl ihr =>
    simp only [fuseE, bind, Except.bind] at h
    cases h1 : fuseE visit l t with
    | error x => simp [h1] at h
    | ok p =>
      obtain ⟨e1, t1⟩ := p
      simp only [h1] at h
      cases h2 : fuseE visit r t1 with
      | error x => simp [h2] at h
      | ok p =>
        obtain ⟨e2, t2⟩ := p
        simp only [h2, pure, Except.pure, Except.ok.injEq, Prod.mk.injEq] at h
        obtain ⟨rfl, rfl⟩ := h
        have r1 := ihl h1 ht
        obtain ⟨D1, s1, i1, f1⟩ := r1.ex
        have r2 := ihr h2 i1
        obtain ⟨D2, s2, i2, f2⟩ := r2.ex
        refine ⟨?_, D2, fun i hi => s2 i (s1 i hi), i2, ?_⟩
        · simp only [hasReduce, Bool.or_eq_true]
          exact Or.imp r1.red r2.red
        · intro f hf
          rcases List.mem_append.1 hf with hf | hf
          · exact s2 f (f1 f hf)
          · exact f2 f hf
  | func f idx => exact hv f idx t e' t' D h ht

theorem tryFuse_inv {g : Graph V} {rc : RC} (fuel : Nat) : ∀ {e e' : DExpr} {t t' : Tbl} {D : Nat → Prop},
    tryFuse rc fuel e t = .ok (e', t') → FInv g rc t D → FRes g rc D e e' t' := by
  induction fuel with
  | zero => intro e e' t t' D h; cases h
  | succ fuel ih =>
    intro e e' t t' D h ht
    unfold tryFuse at h
    refine fuseE_inv ?_ h ht
    intro f idx t e' t' D h ht
    cases hF : t f with
    | none => simp [hF] at h
    | some F =>
      simp only [hF] at h
      split at h
      · cases h
      · split at h
        · simp only [bind, Except.bind] at h
          cases h1 : replaceD (F.outLoops.zip idx) F.expr with
          | error x => simp [h1] at h
          | ok e1 =>
            simp only [h1] at h
            exact ⟨by simp [hasReduce], (ih h ht).ex⟩
        · rename_i hnf
          simp only [bind, Except.bind] at h
          cases h1 : tryFuse rc fuel F.expr t with
          | error x => simp [h1] at h
          | ok p =>
            obtain ⟨e1, t1⟩ := p
            simp only [h1, pure, Except.pure, Except.ok.injEq, Prod.mk.injEq] at h
            obtain ⟨rfl, rfl⟩ := h
            have r1 := ih h1 ht
            obtain ⟨D1, s1, i1, f1⟩ := r1.ex
            simp only [Bool.or_eq_true, Bool.and_eq_true, Bool.not_eq_true', not_or, not_and] at hnf
            have hnc : g.ctx f ≠ .const := fun hc => hnf.1 (ht.konst f F hF hc)
            have hkeep : hasReduce e1 = true ∨ rc f ≠ 1 := by
              by_cases hr : hasReduce F.expr = true
              · exact Or.inl (r1.red hr)
              · right
                intro hrc
                exact hnf.2 (by simpa using hr) (by simpa using hrc)
            refine ⟨by simp [hasReduce], fun i => i = f ∨ D1 i, fun i hi => Or.inr (s1 i hi), ⟨?_, ?_, ?_⟩, by simp [funcRefs]⟩
            · intro i G hi hc
              by_cases hif : i = f
              · subst hif; exact absurd hc hnc
              · rw [Tbl.set_ne _ _ hif] at hi; exact i1.konst i G hi hc
            · rintro i (rfl | hi)
              · exact hnc
              · exact i1.nonconst i hi
            · intro i G hi hG
              by_cases hif : i = f
              · subst hif
                rw [Tbl.set_same, Option.some.injEq] at hG
                subst hG
                exact ⟨hkeep, fun x hx => Or.inr (f1 x hx)⟩
              · rw [Tbl.set_ne _ _ hif] at hG
                have hi' : D1 i := hi.resolve_left hif
                have := i1.kept i G hi' hG
                exact ⟨this.1, fun x hx => Or.inr (this.2 x hx)⟩

/-- Tables made by `arrToFunc` satisfy the invariant with nothing kept yet. -/
theorem Fresh.inv {g : Graph V} {t : Tbl} (ht : Fresh g t) (rc : RC) : FInv g rc t (fun _ => False) := by
  refine ⟨fun i F hi hc => ?_, by simp, by simp⟩
  obtain ⟨_, _, e, he, rfl⟩ := ht.entry i F hi
  simp only [mkExpr, hc, pure, Except.pure, Except.ok.injEq] at he
  subst he; rfl

theorem foldlM_topo_pres {t : Tbl} {fuel : Nat} {P : Nat → Prop}
    (ih : ∀ f seen funcs seen' funcs', topo t fuel f (seen, funcs) = .ok (seen', funcs') → P f → (∀ x ∈ funcs, P x) → ∀ x ∈ funcs', P x)
    (ds : List Nat) : ∀ st st', ds.foldlM (fun st d => topo t fuel d st) st = Except.ok st' → (∀ d ∈ ds, P d) → (∀ x ∈ st.2, P x) → ∀ x ∈ st'.2, P x := by
  induction ds with
  | nil => intro st st' h _ hp; cases h; exact hp
  | cons d ds ihd =>
    intro st st' h hd hp
    rw [List.foldlM_cons] at h
    simp only [bind, Except.bind] at h
    cases h1 : topo t fuel d st with
    | error x => simp [h1] at h
    | ok st1 =>
      simp only [h1] at h
      exact ihd st1 st' h (fun x hx => hd x (by simp [hx])) (ih d st.1 st.2 st1.1 st1.2 h1 (hd d (by simp)) hp)

/-- A property of the root that is inherited by references holds of every listed function. -/
theorem topo_pres {t : Tbl} {P : Nat → Prop} (hP : ∀ i F, P i → t i = some F → ∀ x ∈ funcRefs F.expr, P x) (fuel : Nat) :
    ∀ f seen funcs seen' funcs', topo t fuel f (seen, funcs) = .ok (seen', funcs') → P f → (∀ x ∈ funcs, P x) → ∀ x ∈ funcs', P x := by
  induction fuel with
  | zero => intro f _ _ _ _ h; cases h
  | succ fuel ih =>
    intro f seen funcs seen' funcs' h hf hp
    unfold topo at h
    split at h
    · cases h; exact hp
    · split at h
      · cases h
      · rename_i F hF
        simp only [bind, Except.bind] at h
        cases h1 : (dependentFuncs F.expr).foldlM (fun st d => topo t fuel d st) (seen ++ [f], funcs) with
        | error x => simp [h1] at h
        | ok st1 =>
          simp only [h1, pure, Except.pure, Except.ok.injEq, Prod.mk.injEq] at h
          obtain ⟨rfl, rfl⟩ := h
          have := foldlM_topo_pres ih _ _ _ h1 (fun d hd => hP f F hf hF d (mem_dedup.1 hd)) hp
          intro x hx
          rcases List.mem_append.1 hx with hx | hx
          · exact this x hx
          · rw [List.mem_singleton.1 hx]; exact hf

/-- No kernel is made for a constant, and apart from the array itself only reductions and functions that are
referenced more than once get a kernel. -/
theorem convert_kept {g : Graph V} (h : WF g) {a : Nat} (ha : a < g.length) (hns : NoScalarReshape g a) (hc : g.ctx a ≠ .const)
    {funcs : List Nat} {t : Tbl} (hconv : convert g a = .ok (funcs, t)) :
    ∃ t1 F rc, arrToFunc g (a + 2) a Tbl.empty = .ok t1 ∧ t1 a = some F ∧ countRefs t1 (a + 2) F.expr (fun _ => 0) = .ok rc ∧
      ∀ f ∈ funcs, g.ctx f ≠ .const ∧ (f = a ∨ ∀ F, t f = some F → hasReduce F.expr = true ∨ rc f ≠ 1) := by
  obtain ⟨t1, e1, f1, _, s1, r1⟩ := arrToFunc_ok h (a + 2) a Tbl.empty (by omega) ha hns (Fresh.empty g)
  obtain ⟨F, hF⟩ := Option.isSome_iff_exists.1 s1
  unfold convert at hconv
  simp only [e1, bind, Except.bind, hF] at hconv
  cases h2 : countRefs t1 (a + 2) F.expr (fun _ => 0) with
  | error x => simp [h2] at hconv
  | ok rc =>
    simp only [h2] at hconv
    cases h3 : tryFuse rc (a + 2) F.expr t1 with
    | error x => simp [h3] at hconv
    | ok p =>
      obtain ⟨e', t2⟩ := p
      simp only [h3] at hconv
      generalize hroot : ({ outLoops := F.outLoops, outShape := F.outShape, outDtype := F.outDtype, expr := e', outBuffer := base g a } : Func) = root at hconv
      have hrexpr : root.expr = e' := by subst hroot; rfl
      obtain ⟨D, _, hI, hD⟩ := (tryFuse_inv (g := g) (a + 2) h3 (f1.inv rc)).ex
      cases h4 : topo (t2.set a root) (a + 2) a ([], []) with
      | error x => simp [h4] at hconv
      | ok q =>
        obtain ⟨sn, fs⟩ := q
        simp only [h4, pure, Except.pure, Except.ok.injEq, Prod.mk.injEq] at hconv
        obtain ⟨rfl, rfl⟩ := hconv
        refine ⟨t1, F, rc, e1, hF, h2, ?_⟩
        have hP := topo_pres (t := t2.set a root) (P := fun i => i = a ∨ D i) (by
          intro i G hi hG x hx
          by_cases hia : i = a
          · subst hia
            rw [Tbl.set_same, Option.some.injEq] at hG
            subst hG
            exact Or.inr (hD x (by rw [← hrexpr]; exact hx))
          · rw [Tbl.set_ne _ _ hia] at hG
            exact Or.inr ((hI.kept i G (hi.resolve_left hia) hG).2 x hx)) (a + 2) a [] [] sn fs h4 (Or.inl rfl) (by simp)
        intro f hf
        by_cases hfa : f = a
        · subst hfa; exact ⟨hc, Or.inl rfl⟩
        · have hDf := (hP f hf).resolve_left hfa
          refine ⟨hI.nonconst f hDf, Or.inr fun G hG => ?_⟩
          rw [Tbl.set_ne _ _ hfa] at hG
          exact (hI.kept f G hDf hG).1

end Whale
