import Verif.Proofs.OneKernel
/-
The converse of `convert_uses`: which arrays certainly get a kernel.
-/
namespace Whale
open Algo
variable {V : Type}

/-- The function performs an operation and is not merged into its consumer. -/
def solid (t1 : Tbl) (rc : RC) (x : Nat) : Prop := ∃ F, t1 x = some F ∧ F.expr.ops ≠ 0 ∧ inlined t1 rc x = false

/-- Following references from `x` through functions that are not solid, `y` is the first solid one. -/
inductive Via (t1 : Tbl) (rc : RC) : Nat → Nat → Prop
  | here {y} : solid t1 rc y → Via t1 rc y y
  | through {x z y} : ¬ solid t1 rc x → z ∈ refsAt t1 x → Via t1 rc z y → Via t1 rc x y

/-- Some reference of `e` leads to the solid function `y`. -/
def Ends (t1 : Tbl) (rc : RC) (e : DExpr) (y : Nat) : Prop := ∃ x ∈ funcRefs e, Via t1 rc x y

/-- The table during fusion leads to the same solid functions as the original one. -/
def EndsOK (t1 : Tbl) (rc : RC) (t : Tbl) : Prop := ∀ i F, t i = some F → ∃ F1, t1 i = some F1 ∧ hasReduce F.expr = hasReduce F1.expr ∧
  (F1.expr.ops ≠ 0 → F.expr.ops ≠ 0) ∧ ∀ y, Ends t1 rc F.expr y ↔ Ends t1 rc F1.expr y

/-- What fusing `e` to `e'` keeps. -/
def Same (t1 : Tbl) (rc : RC) (e e' : DExpr) : Prop := hasReduce e' = hasReduce e ∧ (e.ops ≠ 0 → e'.ops ≠ 0) ∧ ∀ y, Ends t1 rc e' y ↔ Ends t1 rc e y

theorem fuseE_ends {t1 : Tbl} {rc : RC} {visit : Nat → List IExpr → Tbl → Except Err (DExpr × Tbl)}
    (hv : ∀ f idx t e' t', visit f idx t = .ok (e', t') → EndsOK t1 rc t → EndsOK t1 rc t' ∧ Same t1 rc (.func f idx) e') :
    ∀ {e e' : DExpr} {t t' : Tbl}, fuseE visit e t = .ok (e', t') → EndsOK t1 rc t → EndsOK t1 rc t' ∧ Same t1 rc e e'
  | .const c, _, _, _, h, ht => by cases h; exact ⟨ht, rfl, id, fun _ => Iff.rfl⟩
  | .buf n idx, _, _, _, h, ht => by cases h; exact ⟨ht, rfl, id, fun _ => Iff.rfl⟩
  | .un op e, _, _, _, h, ht => by
    simp only [fuseE] at h
    obtain ⟨⟨e1, t2⟩, h1, h⟩ := except_bind_ok h
    cases h
    obtain ⟨i1, i2, i3, i4⟩ := fuseE_ends hv h1 ht
    exact ⟨i1, by simpa only [hasReduce] using i2, by simp [DExpr.ops], i4⟩
  | .red op e rs, _, _, _, h, ht => by
    simp only [fuseE] at h
    obtain ⟨⟨e1, t2⟩, h1, h⟩ := except_bind_ok h
    cases h
    obtain ⟨i1, i2, i3, i4⟩ := fuseE_ends hv h1 ht
    exact ⟨i1, rfl, by simp [DExpr.ops], i4⟩
  | .bin op l r, _, _, _, h, ht => by
    simp only [fuseE] at h
    obtain ⟨⟨e1, t2⟩, h1, h⟩ := except_bind_ok h
    obtain ⟨⟨e2, t3⟩, h2, h⟩ := except_bind_ok h
    cases h
    obtain ⟨i1, i2, i3, i4⟩ := fuseE_ends hv h1 ht
    obtain ⟨j1, j2, j3, j4⟩ := fuseE_ends hv h2 i1
    refine ⟨j1, by simp only [hasReduce, i2, j2], by simp [DExpr.ops], fun y => ?_⟩
    have a1 := i4 y
    have a2 := j4 y
    simp only [Ends, funcRefs, List.mem_append, or_and_right, exists_or] at a1 a2 ⊢
    rw [a1, a2]
  | .tern op c l r, _, _, _, h, ht => by
    simp only [fuseE] at h
    obtain ⟨⟨e1, t2⟩, h1, h⟩ := except_bind_ok h
    obtain ⟨⟨e2, t3⟩, h2, h⟩ := except_bind_ok h
    cases h
    obtain ⟨i1, i2, i3, i4⟩ := fuseE_ends hv h1 ht
    obtain ⟨j1, j2, j3, j4⟩ := fuseE_ends hv h2 i1
    refine ⟨j1, by simp only [hasReduce, i2, j2], by simp [DExpr.ops], fun y => ?_⟩
    have a1 := i4 y
    have a2 := j4 y
    simp only [Ends, funcRefs, List.mem_append, or_and_right, exists_or] at a1 a2 ⊢
    rw [a1, a2]
  | .func f idx, e', t, t', h, ht => hv f idx t e' t' h ht

theorem Ends.of_refs {t1 : Tbl} {rc : RC} {e e' : DExpr} (h : funcRefs e' = funcRefs e) (y : Nat) : Ends t1 rc e' y ↔ Ends t1 rc e y := by unfold Ends; rw [h]

theorem via_iff {t1 : Tbl} {rc : RC} {f : Nat} {F1 : Func} (hF1 : t1 f = some F1) (hs : ¬ solid t1 rc f) (y : Nat) : Via t1 rc f y ↔ Ends t1 rc F1.expr y := by
  constructor
  · intro h
    cases h with
    | here h => exact absurd h hs
    | through _ hz hv => exact ⟨_, by unfold refsAt at hz; rwa [hF1] at hz, hv⟩
  · rintro ⟨z, hz, hv⟩
    exact .through hs (by unfold refsAt; rw [hF1]; exact hz) hv

theorem tryFuse_ends {t1 : Tbl} {rc : RC} (fuel : Nat) : ∀ {e e' : DExpr} {t t' : Tbl}, tryFuse rc fuel e t = .ok (e', t') → EndsOK t1 rc t →
    EndsOK t1 rc t' ∧ Same t1 rc e e' := by
  induction fuel with
  | zero => intro e e' t t' h; cases h
  | succ fuel ih =>
    intro e e' t t' h ht
    unfold tryFuse at h
    refine fuseE_ends ?_ h ht
    intro f idx t e' t' h ht
    cases hF : t f with
    | none => simp [hF] at h
    | some F =>
      obtain ⟨F1, hF1, hred, hops, hends⟩ := ht f F hF
      simp only [hF] at h
      split at h
      · cases h
      · split at h
        · rename_i hcond
          obtain ⟨e1, h1, h⟩ := except_bind_ok h
          obtain ⟨i1, i2, i3, i4⟩ := ih h ht
          have hr := replaceD_ops h1
          have hr2 := replaceD_refs h1
          have hnr : hasReduce F.expr = false := by
            rcases Bool.or_eq_true _ _ ▸ hcond with hb | hb
            · revert hb; cases F.expr <;> simp [isBufferExpr, hasReduce]
            · simp only [Bool.and_eq_true, Bool.not_eq_true'] at hb; exact hb.1
          have hns : ¬ solid t1 rc f := by
            rintro ⟨F1', hF1', ho, hi⟩
            rw [hF1] at hF1'; cases hF1'
            rcases Bool.or_eq_true _ _ ▸ hcond with hb | hb
            · refine hops ho ?_
              revert hb; cases F.expr <;> simp [isBufferExpr, DExpr.ops]
            · simp only [inlined, hF1] at hi
              simp only [Bool.and_eq_true] at hb
              rw [← hred, hb.1, hb.2] at hi
              cases hi
          refine ⟨i1, by rw [i2, hr.2, hnr]; rfl, by simp [DExpr.ops], fun y => ?_⟩
          rw [i4, Ends.of_refs hr2.1, hends, ← via_iff hF1 hns]
          simp [Ends, funcRefs]
        · obtain ⟨⟨e1, t2⟩, h1, h⟩ := except_bind_ok h
          cases h
          obtain ⟨i1, i2, i3, i4⟩ := ih h1 ht
          refine ⟨?_, rfl, id, fun _ => Iff.rfl⟩
          intro i G hG
          by_cases hif : i = f
          · subst hif
            rw [Tbl.set_same, Option.some.injEq] at hG
            subst hG
            exact ⟨F1, hF1, by simp only; rw [i2, hred], fun ho => i3 (hops ho), fun y => by simp only; rw [i4, hends]⟩
          · rw [Tbl.set_ne _ _ hif] at hG
            exact i1 i G hG

/-- Sums, and operations used at least twice, get a kernel. -/
theorem convert_must {g : Graph V} (h : WF g) {a : Nat} (ha : a < g.length) (hns : NoScalarReshape g a) (hv : (g.ctx a).op.isView = false)
    {funcs : List Nat} {t : Tbl} (hconv : convert g a = .ok (funcs, t)) {f : Nat} (hf : Reach g a f)
    (hw : Summed g f ∨ opsOf g f ≠ 0 ∧ ∃ arrays : List Nat, arrays.Nodup ∧ (∀ i ∈ arrays, Reach g a i) ∧ 2 ≤ (arrays.flatMap fun i => (g.ctx i).inputs).count f) : f ∈ funcs := by
  have hconv0 := hconv
  obtain ⟨t1, e1, f1, _, s1, r1⟩ := arrToFunc_ok h (a + 2) a Tbl.empty (by omega) ha hns (Fresh.empty g)
  have ht1 := f1.tblOK h
  obtain ⟨F, hF⟩ := Option.isSome_iff_exists.1 s1
  have hreach : ∀ i, (t1 i).isSome → Reach g a i := fun i hi => (r1 i hi).resolve_left (by simp [Tbl.empty])
  have hall : ∀ i, Reach g a i → (t1 i).isSome := by
    intro i hi
    induction hi with
    | refl => exact s1
    | step _ hx ih =>
      obtain ⟨G, hG⟩ := Option.isSome_iff_exists.1 ih
      exact f1.closed _ G hG _ hx
  have hrefs : ∀ i, Reach g a i → refsAt t1 i = (g.ctx i).inputs := by
    intro i hi
    obtain ⟨G, hG⟩ := Option.isSome_iff_exists.1 (hall i hi)
    obtain ⟨_, _, e, he, rfl⟩ := f1.entry i G hG
    unfold refsAt; rw [hG]; exact mkExpr_funcRefs_eq he
  unfold convert at hconv
  simp only [e1, bind, Except.bind, hF] at hconv
  cases h2 : countRefs t1 (a + 2) F.expr (fun _ => 0) with
  | error x => simp [h2] at hconv
  | ok rc =>
    simp only [h2] at hconv
    cases h3 : tryFuse rc (a + 2) F.expr t1 with
    | error x => simp [h3] at hconv
    | ok p =>
      obtain ⟨e', t2⟩ := p
      simp only [h3] at hconv
      cases h4 : topo (t2.set a { outLoops := F.outLoops, outShape := F.outShape, outDtype := F.outDtype, expr := e', outBuffer := base g a }) (a + 2) a ([], []) with
      | error x => simp [h4] at hconv
      | ok q =>
        obtain ⟨sn, fs⟩ := q
        simp only [h4, pure, Except.pure, Except.ok.injEq, Prod.mk.injEq] at hconv
        obtain ⟨rfl, rfl⟩ := hconv
        obtain ⟨N, hN⟩ := countRefs_cnt (a + 2) h2
        have hlt : ∀ i G, t1 i = some G → ∀ x ∈ funcRefs G.expr, x < i := fun i G hG x hx => (ht1.entry i G hG).wf.refs_lt x hx
        obtain ⟨hw2, hs2⟩ := tryFuse_ends (t1 := t1) (rc := rc) (a + 2) h3 (fun i G hG => ⟨G, hG, rfl, id, fun _ => Iff.rfl⟩)
        obtain ⟨fs', t', ec, hnd, ⟨pre, hpre⟩, hord, hent⟩ := convert_ok h ha hns hv
        rw [hconv0] at ec; cases ec
        have hafs : a ∈ fs := by rw [hpre]; simp
        -- all kernels lead to the same solid functions
        have hfin : ∀ k G, (t2.set a { outLoops := F.outLoops, outShape := F.outShape, outDtype := F.outDtype, expr := e', outBuffer := base g a }) k = some G →
            ∃ F1, t1 k = some F1 ∧ ∀ y, Ends t1 rc G.expr y ↔ Ends t1 rc F1.expr y := by
          intro k G hG
          by_cases hka : k = a
          · subst hka
            rw [Tbl.set_same, Option.some.injEq] at hG
            subst hG
            exact ⟨F, hF, hs2.2.2⟩
          · rw [Tbl.set_ne _ _ hka] at hG
            obtain ⟨F1, hF1, _, _, he⟩ := hw2 k G hG
            exact ⟨F1, hF1, he⟩
        have hM : ∀ n k, k ≤ n → k ∈ fs → ∀ F1, t1 k = some F1 → ∀ y, Ends t1 rc F1.expr y → y ∈ fs := by
          intro n
          induction n with
          | zero =>
            intro k hk hkf F1 hF1 y hy
            obtain ⟨x, hx, _⟩ := hy
            have := hlt k F1 hF1 x hx
            omega
          | succ n ih =>
            intro k hk hkf F1 hF1 y hy
            obtain ⟨_, G, hG, hE, _⟩ := hent k hkf
            obtain ⟨F1', hF1', he⟩ := hfin k G hG
            rw [hF1] at hF1'; cases hF1'
            obtain ⟨z, hz, hv⟩ := (he y).2 hy
            have hzf : z ∈ fs := by
              obtain ⟨p1, p2, e⟩ := List.append_of_mem hkf
              rw [e]
              exact List.mem_append_left _ (hord p1 k p2 e G hG z hz)
            cases hv with
            | here _ => exact hzf
            | through hs hu hv =>
              obtain ⟨Z1, hZ1⟩ := Option.isSome_iff_exists.1 (hall z (hent z hzf).1)
              have hzk : z < k := hE.wf.refs_lt z hz
              exact ih z (by omega) hzf Z1 hZ1 y ((via_iff hZ1 hs y).1 (.through hs hu hv))
        have hQ : ∀ i, Reach g a i → ∀ y, Via t1 rc i y → y ∈ fs := by
          intro i hi
          induction hi with
          | refl =>
            intro y hy
            by_cases hs : solid t1 rc a
            · cases hy with
              | here _ => exact hafs
              | through hn _ _ => exact absurd hs hn
            · exact hM a a (Nat.le_refl _) hafs F hF y ((via_iff hF hs y).1 hy)
          | @step i x hi hx ih =>
            intro y hy
            by_cases hs : solid t1 rc i
            · obtain ⟨G, hG⟩ := Option.isSome_iff_exists.1 (hall i hi)
              refine hM i i (Nat.le_refl _) (ih i (.here hs)) G hG y ⟨x, ?_, hy⟩
              have := hrefs i hi
              unfold refsAt at this; rw [hG] at this
              simp only at this
              rw [this]; exact hx
            · exact ih y (.through hs (by rw [hrefs i hi]; exact hx) hy)
        refine hQ f hf f (.here ?_)
        obtain ⟨G, hG⟩ := Option.isSome_iff_exists.1 (hall f hf)
        obtain ⟨_, _, e, he, hGe⟩ := f1.entry f G hG
        have hGx : G.expr = e := by rw [hGe]; rfl
        rcases hw with hsum | ⟨ho, arrays, hnd', hra, hcnt⟩
        · obtain ⟨x, ax, kd, hc⟩ := hsum
          have hred : hasReduce e = true ∧ e.ops ≠ 0 := by
            unfold mkExpr at he
            simp only [hc] at he
            unfold reduceExpr at he
            obtain ⟨_, _, he⟩ := except_bind_ok he
            cases he; exact ⟨rfl, by simp [DExpr.ops]⟩
          exact ⟨G, hG, by rw [hGx]; exact hred.2, by simp [inlined, hG, hGx, hred.1]⟩
        · refine ⟨G, hG, by rw [hGx, mkExpr_ops he]; exact ho, ?_⟩
          have hcall : ∀ i, Reach g a i → i = a ∨ i ∈ N := by
            intro i hi
            have : ∀ i, Reach g a i → i = a ∨ rc i ≠ 0 := by
              intro i hi
              induction hi with
              | refl => exact .inl rfl
              | @step i x hi hx ih =>
                right
                have he := hN.eq x
                rcases ih with rfl | hri
                · have h0 := hrefs i .refl
                  unfold refsAt at h0; rw [hF] at h0; simp only at h0
                  have : 0 < (funcRefs F.expr).count x := List.count_pos_iff.2 (by rw [h0]; exact hx)
                  omega
                · have hiN := hN.all i rfl hri
                  have : 0 < (N.flatMap (refsAt t1)).count x := List.count_pos_iff.2 (List.mem_flatMap.2 ⟨i, hiN, by rw [hrefs i hi]; exact hx⟩)
                  omega
            exact (this i hi).imp id (hN.all i rfl)
          have hle : (arrays.flatMap fun i => (g.ctx i).inputs).count f ≤ rc f := by
            have e1 : (arrays.flatMap fun i => (g.ctx i).inputs).count f = (arrays.map fun i => (refsAt t1 i).count f).sum := by
              rw [List.count_flatMap]
              congr 1
              apply List.map_congr_left
              intro i hi
              simp only [Function.comp]
              rw [hrefs i (hra i hi)]
            have e2 : ((a :: N).map fun i => (refsAt t1 i).count f).sum = rc f := by
              have := hN.eq f
              have h0 : refsAt t1 a = funcRefs F.expr := by unfold refsAt; rw [hF]
              have hc : (N.flatMap (refsAt t1)).count f = (N.map fun i => (refsAt t1 i).count f).sum := by rw [List.count_flatMap]; rfl
              rw [List.map_cons, List.sum_cons, h0, ← hc]
              omega
            rw [e1, ← e2]
            exact sum_le_of_subset hnd' (fun x hx => by
              rcases hcall x (hra x hx) with rfl | hm
              · simp
              · simp [hm])
          have : (rc f == 1) = false := by simp only [beq_eq_false_iff_ne]; omega
          simp [inlined, hG, this]

end Whale
