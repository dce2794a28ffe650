import Verif.Proofs.Fusion
/-
No operation of the graph is computed by more than one kernel: the operations in all kernels of one conversion together are at most the operations of the
graph, counted once each.
-/
namespace Whale
open Algo
variable {V : Type}

theorem sum_le_of_subset {f : Nat → Nat} : ∀ {l m : List Nat}, l.Nodup → (∀ x ∈ l, x ∈ m) → (l.map f).sum ≤ (m.map f).sum := by
  intro l
  induction l with
  | nil => intro m _ _; simp
  | cons a l ih =>
    intro m hn hs
    rw [List.nodup_cons] at hn
    have ha : a ∈ m := hs a (by simp)
    have hp := List.perm_cons_erase ha
    rw [(hp.map f).sum_eq]
    simp only [List.map_cons, List.sum_cons]
    have := ih (m := m.erase a) hn.2 (fun x hx => by
      have hxa : x ≠ a := fun e => hn.1 (e ▸ hx)
      exact (List.mem_erase_of_ne hxa).2 (hs x (by simp [hx])))
    omega

theorem sum_map_le {α : Type} {f g : α → Nat} {l : List α} (h : ∀ x ∈ l, f x ≤ g x) : (l.map f).sum ≤ (l.map g).sum := by
  induction l with
  | nil => exact Nat.le_refl _
  | cons a l ih =>
    have h1 := h a (by simp)
    have h2 := ih (fun x hx => h x (by simp [hx]))
    simp only [List.map_cons, List.sum_cons]; omega

theorem sum_filter_add {f : Nat → Nat} (p : Nat → Bool) (l : List Nat) : (l.map f).sum = ((l.filter p).map f).sum + ((l.filter (fun x => !p x)).map f).sum := by
  induction l with
  | nil => rfl
  | cons a l ih =>
    by_cases h : p a = true
    · simp [h, ih]; omega
    · simp [h, ih]; omega

theorem sum_if_filter {f : Nat → Nat} (p : Nat → Bool) (l : List Nat) : (l.map fun x => if p x then f x else 0).sum = ((l.filter p).map f).sum := by
  induction l with
  | nil => rfl
  | cons a l ih =>
    by_cases h : p a = true
    · simp [h, ih]
    · simp [h, ih]

/-! ### reference counts are counts -/

/-- References made by the function of array `i`. -/
def refsAt (t : Tbl) (i : Nat) : List Nat := match t i with
  | some F => funcRefs F.expr
  | none => []

/-- Counting the references `R` from counts `rc` visits the functions `N` for the first time. -/
structure Cnt (t : Tbl) (R : List Nat) (rc rc' : RC) (N : List Nat) : Prop where
  nodup : N.Nodup
  new : ∀ i ∈ N, rc i = 0 ∧ (t i).isSome
  eq : ∀ x, rc' x = rc x + R.count x + (N.flatMap (refsAt t)).count x
  all : ∀ x, rc x = 0 → rc' x ≠ 0 → x ∈ N
  pos : ∀ i ∈ N, rc' i ≠ 0

theorem Cnt.nil (t : Tbl) (rc : RC) : Cnt t [] rc rc [] := ⟨by simp, by simp, by simp, fun x h h' => absurd h h', by simp⟩

theorem Cnt.append {t : Tbl} {R S : List Nat} {rc rc1 rc2 : RC} {N M : List Nat} (h : Cnt t R rc rc1 N) (k : Cnt t S rc1 rc2 M) : Cnt t (R ++ S) rc rc2 (N ++ M) := by
  refine ⟨?_, ?_, ?_, ?_, ?_⟩
  · rw [List.nodup_append]
    refine ⟨h.nodup, k.nodup, fun x hx y hy e => ?_⟩
    subst e
    exact h.pos x hx (k.new x hy).1
  · intro i hi
    rcases List.mem_append.1 hi with hi | hi
    · exact h.new i hi
    · have h1 := h.eq i
      have h2 := k.new i hi
      exact ⟨by omega, h2.2⟩
  · intro x
    rw [k.eq, h.eq, List.count_append, List.flatMap_append, List.count_append]; omega
  · intro x h0 h2
    by_cases h1 : rc1 x = 0
    · exact List.mem_append_right _ (k.all x h1 h2)
    · exact List.mem_append_left _ (h.all x h0 h1)
  · intro i hi
    rcases List.mem_append.1 hi with hi | hi
    · have := h.pos i hi
      have := k.eq i
      omega
    · exact k.pos i hi

theorem countE_cnt {t : Tbl} {visit : Nat → RC → Except Err RC}
    (hv : ∀ f rc rc', visit f rc = .ok rc' → ∃ N, (t f).isSome ∧ Cnt t (refsAt t f) rc rc' N) {e : DExpr} {rc rc' : RC} (h : countE visit e rc = .ok rc') :
    ∃ N, Cnt t (funcRefs e) rc rc' N := by
  induction e generalizing rc rc' with
  | const c => cases h; exact ⟨[], .nil t rc⟩
  | buf n idx => cases h; exact ⟨[], .nil t rc⟩
  | un op e ih => exact ih h
  | red op e rs ih => exact ih h
  | bin op l r ihl ihr =>
    simp only [countE, bind, Except.bind] at h
    cases h1 : countE visit l rc with
    | error x => simp [h1] at h
    | ok rc1 =>
      simp only [h1] at h
      obtain ⟨N, hN⟩ := ihl h1
      obtain ⟨M, hM⟩ := ihr h
      exact ⟨N ++ M, hN.append hM⟩
  | tern op c l r ihl ihr =>
    simp only [countE, bind, Except.bind] at h
    cases h1 : countE visit l rc with
    | error x => simp [h1] at h
    | ok rc1 =>
      simp only [h1] at h
      obtain ⟨N, hN⟩ := ihl h1
      obtain ⟨M, hM⟩ := ihr h
      exact ⟨N ++ M, hN.append hM⟩
  | func f idx =>
    simp only [countE, if_true] at h
    have hcount : ∀ x, [f].count x = if x = f then 1 else 0 := by
      intro x; rw [List.count_singleton]
      by_cases hx : x = f
      · subst hx; simp
      · simp [hx, Ne.symm hx]
    split at h
    · rename_i h1
      have h0 : rc f = 0 := by omega
      obtain ⟨N, hs, hN⟩ := hv f _ rc' h
      have hfN : f ∉ N := fun hf => by have := (hN.new f hf).1; simp at this
      refine ⟨f :: N, ?_, ?_, ?_, ?_, ?_⟩
      · exact List.nodup_cons.2 ⟨hfN, hN.nodup⟩
      · intro i hi
        rcases List.mem_cons.1 hi with rfl | hi
        · exact ⟨h0, hs⟩
        · have := hN.new i hi
          refine ⟨?_, this.2⟩
          have h3 := this.1
          split at h3 <;> omega
      · intro x
        have := hN.eq x
        rw [this]
        simp only [funcRefs, hcount, List.flatMap_cons, List.count_append]
        split <;> omega
      · intro x hx hx'
        by_cases he : x = f
        · subst he; simp
        · exact List.mem_cons_of_mem _ (hN.all x (by simp [he, hx]) hx')
      · intro i hi
        rcases List.mem_cons.1 hi with rfl | hi
        · have := hN.eq i; simp at this; omega
        · exact hN.pos i hi
    · rename_i h1
      cases h
      refine ⟨[], by simp, by simp, ?_, ?_, by simp⟩
      · intro x
        simp only [funcRefs, hcount, List.flatMap_nil, List.count_nil]
        split <;> omega
      · intro x hx hx'
        by_cases he : x = f
        · subst he; omega
        · simp [he, hx] at hx'

theorem countRefs_cnt {t : Tbl} (fuel : Nat) : ∀ {e : DExpr} {rc rc' : RC}, countRefs t fuel e rc = .ok rc' → ∃ N, Cnt t (funcRefs e) rc rc' N := by
  induction fuel with
  | zero => intro e rc rc' h; cases h
  | succ fuel ih =>
    intro e rc rc' h
    unfold countRefs at h
    refine countE_cnt ?_ h
    intro f rc rc' h
    cases hF : t f with
    | none => simp [hF] at h
    | some F =>
      simp only [hF] at h
      obtain ⟨N, hN⟩ := ih h
      exact ⟨N, rfl, by unfold refsAt; rw [hF]; exact hN⟩

/-! ### the work done for an array -/

/-- Functions that fusion merges into their only consumer. -/
def inlined (t : Tbl) (rc : RC) (x : Nat) : Bool := match t x with
  | some F => !hasReduce F.expr && rc x == 1
  | none => false

/-- Operations computed by the kernel of array `i` if everything that can be merged is merged. -/
def work (t : Tbl) (inl : Nat → Bool) (i : Nat) : Nat := match t i with
  | none => 0
  | some F => F.expr.ops + ((funcRefs F.expr).map fun x => if _h : x < i then (if inl x then work t inl x else 0) else 0).sum
termination_by i

theorem work_eq {t : Tbl} {inl : Nat → Bool} {i : Nat} {F : Func} (h : t i = some F) (hlt : ∀ x ∈ funcRefs F.expr, x < i) :
    work t inl i = F.expr.ops + ((funcRefs F.expr).map fun x => if inl x then work t inl x else 0).sum := by
  rw [work, h]
  simp only
  congr 2
  apply List.map_congr_left
  intro x hx
  rw [dif_pos (hlt x hx)]

/-- Operations in `e` and in everything merged into it. -/
def pot (t : Tbl) (inl : Nat → Bool) (e : DExpr) : Nat := e.ops + ((funcRefs e).map fun x => if inl x then work t inl x else 0).sum

theorem replaceD_ops {m : Repl} {e e' : DExpr} (h : replaceD m e = .ok e') : e'.ops = e.ops ∧ hasReduce e' = hasReduce e := by
  induction e generalizing e' with
  | const c => cases h; exact ⟨rfl, rfl⟩
  | un op e ih =>
    simp only [replaceD, bind, Except.bind] at h
    cases h1 : replaceD m e <;> simp only [h1, pure, Except.pure, reduceCtorEq, Except.ok.injEq] at h
    subst h; have := ih h1; simp [DExpr.ops, hasReduce, this]
  | red op e rs ih =>
    simp only [replaceD, bind, Except.bind] at h
    cases h1 : replaceD m e <;> simp only [h1, pure, Except.pure, reduceCtorEq, Except.ok.injEq] at h
    subst h; have := ih h1; simp [DExpr.ops, hasReduce, this]
  | bin op l r ihl ihr =>
    simp only [replaceD, bind, Except.bind] at h
    cases h1 : replaceD m l <;> simp only [h1, reduceCtorEq] at h
    cases h2 : replaceD m r <;> simp only [h2, pure, Except.pure, reduceCtorEq, Except.ok.injEq] at h
    subst h; have := ihl h1; have := ihr h2; simp [DExpr.ops, hasReduce, *]
  | tern op c l r ihl ihr =>
    simp only [replaceD, bind, Except.bind] at h
    cases h0 : replaceI m c <;> simp only [h0, reduceCtorEq] at h
    cases h1 : replaceD m l <;> simp only [h1, reduceCtorEq] at h
    cases h2 : replaceD m r <;> simp only [h2, pure, Except.pure, reduceCtorEq, Except.ok.injEq] at h
    subst h; have := ihl h1; have := ihr h2; simp [DExpr.ops, hasReduce, *]
  | func f idx =>
    simp only [replaceD, bind, Except.bind] at h
    split at h
    · cases h
    · cases h; exact ⟨rfl, rfl⟩
  | buf f idx =>
    simp only [replaceD, bind, Except.bind] at h
    split at h
    · cases h
    · cases h; exact ⟨rfl, rfl⟩

/-- The function table during fusion: nothing was lost or duplicated. -/
def WorkOK (t1 : Tbl) (inl : Nat → Bool) (t : Tbl) : Prop := ∀ i F, t i = some F → ∃ F1, t1 i = some F1 ∧ pot t1 inl F.expr = work t1 inl i ∧ hasReduce F.expr = hasReduce F1.expr

theorem fuseE_work {t1 : Tbl} {inl : Nat → Bool} {visit : Nat → List IExpr → Tbl → Except Err (DExpr × Tbl)}
    (hv : ∀ f idx t e' t', visit f idx t = .ok (e', t') → WorkOK t1 inl t → WorkOK t1 inl t' ∧ pot t1 inl e' = pot t1 inl (.func f idx) ∧ hasReduce e' = false)
    {e e' : DExpr} {t t' : Tbl} (h : fuseE visit e t = .ok (e', t')) (ht : WorkOK t1 inl t) :
    WorkOK t1 inl t' ∧ pot t1 inl e' = pot t1 inl e ∧ hasReduce e' = hasReduce e := by
  induction e generalizing t e' t' with
  | const c => cases h; exact ⟨ht, rfl, rfl⟩
  | buf n idx => cases h; exact ⟨ht, rfl, rfl⟩
  | un op e ih =>
    simp only [fuseE, bind, Except.bind] at h
    cases h1 : fuseE visit e t with
    | error x => simp [h1] at h
    | ok p =>
      simp only [h1, pure, Except.pure, Except.ok.injEq, Prod.mk.injEq] at h
      obtain ⟨rfl, rfl⟩ := h
      obtain ⟨i1, i2, i3⟩ := ih (e' := p.1) (t' := p.2) h1 ht
      refine ⟨i1, ?_, by simp [hasReduce, i3]⟩
      simp only [pot, DExpr.ops, funcRefs] at i2 ⊢; omega
  | red op e rs ih =>
    simp only [fuseE, bind, Except.bind] at h
    cases h1 : fuseE visit e t with
    | error x => simp [h1] at h
    | ok p =>
      simp only [h1, pure, Except.pure, Except.ok.injEq, Prod.mk.injEq] at h
      obtain ⟨rfl, rfl⟩ := h
      obtain ⟨i1, i2, i3⟩ := ih (e' := p.1) (t' := p.2) h1 ht
      refine ⟨i1, ?_, rfl⟩
      simp only [pot, DExpr.ops, funcRefs] at i2 ⊢; omega
  | bin op l r ihl ihr =>
    simp only [fuseE, bind, Except.bind] at h
    cases h1 : fuseE visit l t with
    | error x => simp [h1] at h
    | ok p =>
      simp only [h1] at h
      cases h2 : fuseE visit r p.2 with
      | error x => simp [h2] at h
      | ok q =>
        simp only [h2, pure, Except.pure, Except.ok.injEq, Prod.mk.injEq] at h
        obtain ⟨rfl, rfl⟩ := h
        obtain ⟨i1, i2, i3⟩ := ihl (e' := p.1) (t' := p.2) h1 ht
        obtain ⟨j1, j2, j3⟩ := ihr (e' := q.1) (t' := q.2) h2 i1
        refine ⟨j1, ?_, by simp [hasReduce, i3, j3]⟩
        simp only [pot, DExpr.ops, funcRefs, List.map_append, List.sum_append] at i2 j2 ⊢; omega
  | tern op c l r ihl ihr =>
    simp only [fuseE, bind, Except.bind] at h
    cases h1 : fuseE visit l t with
    | error x => simp [h1] at h
    | ok p =>
      simp only [h1] at h
      cases h2 : fuseE visit r p.2 with
      | error x => simp [h2] at h
      | ok q =>
        simp only [h2, pure, Except.pure, Except.ok.injEq, Prod.mk.injEq] at h
        obtain ⟨rfl, rfl⟩ := h
        obtain ⟨i1, i2, i3⟩ := ihl (e' := p.1) (t' := p.2) h1 ht
        obtain ⟨j1, j2, j3⟩ := ihr (e' := q.1) (t' := q.2) h2 i1
        refine ⟨j1, ?_, by simp [hasReduce, i3, j3]⟩
        simp only [pot, DExpr.ops, funcRefs, List.map_append, List.sum_append] at i2 j2 ⊢; omega
  | func f idx => exact hv f idx t e' t' h ht

theorem tryFuse_work {t1 : Tbl} {rc : RC} (fuel : Nat) : ∀ {e e' : DExpr} {t t' : Tbl}, tryFuse rc fuel e t = .ok (e', t') → WorkOK t1 (inlined t1 rc) t →
    WorkOK t1 (inlined t1 rc) t' ∧ pot t1 (inlined t1 rc) e' = pot t1 (inlined t1 rc) e ∧ hasReduce e' = hasReduce e := by
  induction fuel with
  | zero => intro e e' t t' h; cases h
  | succ fuel ih =>
    intro e e' t t' h ht
    unfold tryFuse at h
    refine fuseE_work ?_ h ht
    intro f idx t e' t' h ht
    have hpf : pot t1 (inlined t1 rc) (.func f idx) = if inlined t1 rc f then work t1 (inlined t1 rc) f else 0 := by simp [pot, DExpr.ops, funcRefs]
    cases hF : t f with
    | none => simp [hF] at h
    | some F =>
      obtain ⟨F1, hF1, hp, hred⟩ := ht f F hF
      have hinl : inlined t1 rc f = (!hasReduce F.expr && rc f == 1) := by simp [inlined, hF1, hred]
      simp only [hF] at h
      split at h
      · cases h
      · split at h
        · rename_i hcond
          simp only [bind, Except.bind] at h
          cases h1 : replaceD (F.outLoops.zip idx) F.expr with
          | error x => simp [h1] at h
          | ok e1 =>
            simp only [h1] at h
            obtain ⟨i1, i2, i3⟩ := ih h ht
            have hr := replaceD_ops h1
            have hr2 := replaceD_refs h1
            have hpe : pot t1 (inlined t1 rc) e1 = work t1 (inlined t1 rc) f := by rw [← hp]; simp [pot, hr.1, hr2.1]
            have hnr : hasReduce F.expr = false := by
              rcases Bool.or_eq_true _ _ ▸ hcond with hb | hb
              · revert hb; cases F.expr <;> simp [isBufferExpr, hasReduce]
              · simp only [Bool.and_eq_true, Bool.not_eq_true'] at hb; exact hb.1
            refine ⟨i1, ?_, by rw [i3, hr.2, hnr]⟩
            rw [i2, hpe, hpf]
            rcases Bool.or_eq_true _ _ ▸ hcond with hb | hb
            · have : work t1 (inlined t1 rc) f = 0 := by
                rw [← hp]; revert hb
                cases F.expr <;> simp [isBufferExpr, pot, DExpr.ops, funcRefs]
              rw [this]; split <;> rfl
            · rw [hinl, if_pos hb]
        · rename_i hcond
          simp only [bind, Except.bind] at h
          cases h1 : tryFuse rc fuel F.expr t with
          | error x => simp [h1] at h
          | ok p =>
            simp only [h1, pure, Except.pure, Except.ok.injEq, Prod.mk.injEq] at h
            obtain ⟨rfl, rfl⟩ := h
            obtain ⟨i1, i2, i3⟩ := ih (e' := p.1) (t' := p.2) h1 ht
            refine ⟨?_, rfl, rfl⟩
            intro i G hG
            by_cases hif : i = f
            · subst hif
              rw [Tbl.set_same, Option.some.injEq] at hG
              subst hG
              exact ⟨F1, hF1, by simp only; rw [i2, hp], by simp only; rw [i3, hred]⟩
            · rw [Tbl.set_ne _ _ hif] at hG
              exact i1 i G hG

theorem mkExpr_ops {g : Graph V} {a : Nat} {e : DExpr} (h : mkExpr g a = .ok e) : e.ops = opsOf g a := by
  unfold mkExpr at h
  unfold opsOf
  cases hc : g.ctx a <;> simp only [hc] at h ⊢
  case const => cases h; rfl
  case unary => cases h; rfl
  case binary => cases h; rfl
  case contiguous => cases h; rfl
  case sum x axis kd =>
    unfold reduceExpr at h
    simp only [bind, Except.bind] at h
    split at h
    · cases h
    · cases h; rfl
  case pad x dim b c =>
    unfold padExpr at h
    simp only [bind, Except.bind] at h
    split at h
    · cases h
    · split at h
      · cases h
      · cases h; rfl
  case dilate x dim st =>
    unfold dilateExpr at h
    simp only [bind, Except.bind] at h
    split at h
    · cases h
    · cases h; rfl
  all_goals
    simp only [bind, Except.bind] at h
    split at h
    · cases h
    · cases h; rfl

/-- All kernels together contain at most as many operations as the graph, every array counted once. -/
theorem convert_linear {g : Graph V} (h : WF g) {a : Nat} (ha : a < g.length) (hns : NoScalarReshape g a) (hv : (g.ctx a).op.isView = false) (hc : g.ctx a ≠ .const)
    {funcs : List Nat} {t : Tbl} (hconv : convert g a = .ok (funcs, t)) :
    ∃ R : List Nat, R.Nodup ∧ (∀ i ∈ R, Reach g a i) ∧ (∀ f ∈ funcs, f ∈ R) ∧
      (funcs.map fun f => match t f with | some F => F.expr.ops | none => 0).sum ≤ (R.map (opsOf g)).sum := by
  have hconv0 := hconv
  obtain ⟨t1, e1, f1, _, s1, r1⟩ := arrToFunc_ok h (a + 2) a Tbl.empty (by omega) ha hns (Fresh.empty g)
  have ht1 := f1.tblOK h
  obtain ⟨F, hF⟩ := Option.isSome_iff_exists.1 s1
  have hreach : ∀ i, (t1 i).isSome → Reach g a i := fun i hi => (r1 i hi).resolve_left (by simp [Tbl.empty])
  unfold convert at hconv
  simp only [e1, bind, Except.bind, hF] at hconv
  cases h2 : countRefs t1 (a + 2) F.expr (fun _ => 0) with
  | error x => simp [h2] at hconv
  | ok rc =>
    simp only [h2] at hconv
    cases h3 : tryFuse rc (a + 2) F.expr t1 with
    | error x => simp [h3] at hconv
    | ok p =>
      obtain ⟨e', t2⟩ := p
      simp only [h3] at hconv
      cases h4 : topo (t2.set a { outLoops := F.outLoops, outShape := F.outShape, outDtype := F.outDtype, expr := e', outBuffer := base g a }) (a + 2) a ([], []) with
      | error x => simp [h4] at hconv
      | ok q =>
        obtain ⟨sn, fs⟩ := q
        simp only [h4, pure, Except.pure, Except.ok.injEq, Prod.mk.injEq] at hconv
        obtain ⟨rfl, rfl⟩ := hconv
        obtain ⟨N, hN⟩ := countRefs_cnt (a + 2) h2
        have hlt : ∀ i G, t1 i = some G → ∀ x ∈ funcRefs G.expr, x < i := fun i G hG x hx => (ht1.entry i G hG).wf.refs_lt x hx
        generalize hinl : inlined t1 rc = inl
        have hw1 : WorkOK t1 inl t1 := fun i G hG => ⟨G, hG, (work_eq hG (hlt i G hG)).symm, rfl⟩
        obtain ⟨hw2, hpe, hre⟩ := tryFuse_work (t1 := t1) (rc := rc) (a + 2) h3 (by rw [hinl]; exact hw1)
        rw [hinl] at hw2 hpe
        -- the arrays visited
        have haN : a ∉ N := by
          intro hm
          have hp := hN.pos a hm
          have he := hN.eq a
          have c1 : (funcRefs F.expr).count a = 0 := List.count_eq_zero.2 fun hx => Nat.lt_irrefl _ (hlt a F hF a hx)
          have c2 : (N.flatMap (refsAt t1)).count a = 0 := List.count_eq_zero.2 fun hx => by
            obtain ⟨i, hi, hx⟩ := List.mem_flatMap.1 hx
            obtain ⟨G, hG⟩ := Option.isSome_iff_exists.1 (hN.new i hi).2
            unfold refsAt at hx; rw [hG] at hx
            have := hlt i G hG a hx
            have := (hreach i (hN.new i hi).2).le h ha
            omega
          omega
        have hrca : rc a = 0 := by
          by_contra hn
          exact haN (hN.all a rfl hn)
        have hinla : inl a = false := by rw [← hinl]; simp [inlined, hF, hrca]
        have hRn : (a :: N).Nodup := List.nodup_cons.2 ⟨haN, hN.nodup⟩
        have hRs : ∀ i ∈ a :: N, ∃ G, t1 i = some G := by
          intro i hi
          rcases List.mem_cons.1 hi with rfl | hi
          · exact ⟨F, hF⟩
          · exact Option.isSome_iff_exists.1 (hN.new i hi).2
        -- all references
        have hL : ∀ x, ((a :: N).flatMap (refsAt t1)).count x = rc x := by
          intro x
          have := hN.eq x
          rw [List.flatMap_cons, List.count_append, this]
          have : refsAt t1 a = funcRefs F.expr := by unfold refsAt; rw [hF]
          rw [this]; omega
        -- total work
        have htot : ∀ M : List Nat, (∀ i ∈ M, ∃ G, t1 i = some G) →
            (M.map (work t1 inl)).sum = (M.map (opsOf g)).sum + (((M.flatMap (refsAt t1)).filter inl).map (work t1 inl)).sum := by
          intro M
          induction M with
          | nil => intro _; rfl
          | cons i M ih =>
            intro hM
            obtain ⟨G, hG⟩ := hM i (by simp)
            have hi := ih (fun x hx => hM x (by simp [hx]))
            have hwi := work_eq (inl := inl) hG (hlt i G hG)
            rw [sum_if_filter] at hwi
            obtain ⟨_, _, e, he, rfl⟩ := f1.entry i G hG
            have ho : (mkFunc g i e).expr.ops = opsOf g i := mkExpr_ops he
            have hr : refsAt t1 i = funcRefs (mkFunc g i e).expr := by unfold refsAt; rw [hG]
            simp only [List.map_cons, List.sum_cons, List.flatMap_cons, List.filter_append, List.map_append, List.sum_append]
            rw [hwi, hi, ho, hr]; omega
        have h5 := htot (a :: N) hRs
        have h6 := sum_filter_add (f := work t1 inl) inl (a :: N)
        have h7 : ((((a :: N).flatMap (refsAt t1)).filter inl).map (work t1 inl)).sum ≤ (((a :: N).filter inl).map (work t1 inl)).sum := by
          apply sum_le_of_subset
          · rw [List.nodup_iff_count_le_one]
            intro x
            by_cases hx : inl x = true
            · rw [List.count_filter hx, hL]
              rw [← hinl] at hx
              unfold inlined at hx
              split at hx
              · simp at hx; omega
              · cases hx
            · rw [List.count_eq_zero.2 (fun hm => hx (List.mem_filter.1 hm).2)]; omega
          · intro x hx
            obtain ⟨hx1, hx2⟩ := List.mem_filter.1 hx
            refine List.mem_filter.2 ⟨?_, hx2⟩
            have : rc x ≠ 0 := by
              rw [← hL]; exact Nat.pos_iff_ne_zero.1 (List.count_pos_iff.2 hx1)
            exact List.mem_cons_of_mem _ (hN.all x rfl this)
        -- the kernels
        obtain ⟨t1', F', rc', e1', hF', h2', hk⟩ := convert_kept h ha hns hc hconv0
        rw [e1] at e1'; cases e1'
        rw [hF] at hF'; cases hF'
        rw [h2] at h2'; cases h2'
        obtain ⟨fs', t', ec, hnd, _, hord, hent⟩ := convert_ok h ha hns hv
        rw [hconv0] at ec; cases ec
        have hrcf : ∀ f ∈ fs, f = a ∨ rc f ≠ 0 := by
          obtain ⟨D, _, hI, hD⟩ := (tryFuse_inv (g := g) (a + 2) h3 (f1.inv rc)).ex
          obtain ⟨e'', t2', e3', f3⟩ := tryFuse_ok (rc := rc) (fuel := a + 1) (i := a) (by omega) (ht1.entry a F hF).wf
            (fun f hf => by rw [← hL]; exact Nat.pos_iff_ne_zero.1 (List.count_pos_iff.2 (by
              rw [List.flatMap_cons]; exact List.mem_append_left _ (by unfold refsAt; rw [hF]; exact hf)))) ht1
            (fun i hi => by
              have hiN := hN.all i rfl hi
              obtain ⟨G, hG⟩ := hRs i (List.mem_cons_of_mem _ hiN)
              refine ⟨G, hG, fun f hf => ?_⟩
              rw [← hL]; exact Nat.pos_iff_ne_zero.1 (List.count_pos_iff.2 (List.mem_flatMap.2 ⟨i, List.mem_cons_of_mem _ hiN, by unfold refsAt; rw [hG]; exact hf⟩)))
          have e3'' : tryFuse rc (a + 2) F.expr t1 = .ok (e'', t2') := e3'
          rw [h3] at e3''; cases e3''
          refine topo_pres (P := fun i => i = a ∨ rc i ≠ 0) ?_ (a + 2) a [] [] sn fs h4 (Or.inl rfl) (by simp)
          intro i G hi hG x hx
          by_cases hia : i = a
          · subst hia
            rw [Tbl.set_same, Option.some.injEq] at hG
            subst hG
            exact Or.inr (f3.refs x hx)
          · rw [Tbl.set_ne _ _ hia] at hG
            obtain ⟨G', hG', hr⟩ := f3.rcOK i (hi.resolve_left hia)
            rw [hG] at hG'; cases hG'
            exact Or.inr (hr x hx)
        have hmemR : ∀ f ∈ fs, f ∈ a :: N := by
          intro f hf
          rcases hrcf f hf with rfl | hr
          · simp
          · exact List.mem_cons_of_mem _ (hN.all f rfl hr)
        have hwf : ∀ f ∈ fs, (match (t2.set a { outLoops := F.outLoops, outShape := F.outShape, outDtype := F.outDtype, expr := e', outBuffer := base g a }) f with
            | some F => F.expr.ops | none => 0) ≤ work t1 inl f := by
          intro f hf
          by_cases hfa : f = a
          · subst hfa
            rw [Tbl.set_same]
            simp only
            have : pot t1 inl e' = work t1 inl f := by rw [hpe]; exact (work_eq hF (hlt f F hF)).symm
            rw [← this]; unfold pot; omega
          · rw [Tbl.set_ne _ _ hfa]
            cases hG : t2 f with
            | none => exact Nat.zero_le _
            | some G =>
              obtain ⟨_, _, hp, _⟩ := hw2 f G hG
              simp only
              rw [← hp]; unfold pot; omega
        have hnotinl : ∀ f ∈ fs, inl f = false := by
          intro f hf
          by_cases hfa : f = a
          · subst hfa; exact hinla
          · obtain ⟨_, G, hG, _⟩ := hent f hf
            have := ((hk f hf).2.resolve_left hfa) G hG
            rw [Tbl.set_ne _ _ hfa] at hG
            obtain ⟨F1, hF1, _, hred⟩ := hw2 f G hG
            rw [← hinl]
            simp only [inlined, hF1]
            rcases this with hr | hr
            · rw [hred] at hr; simp [hr]
            · simp [hr]
        refine ⟨a :: N, hRn, fun i hi => ?_, hmemR, ?_⟩
        · obtain ⟨G, hG⟩ := hRs i hi
          exact hreach i (by rw [hG]; rfl)
        · have h8 : (fs.map (work t1 inl)).sum ≤ (((a :: N).filter fun x => !inl x).map (work t1 inl)).sum :=
            sum_le_of_subset hnd (fun f hf => List.mem_filter.2 ⟨hmemR f hf, by rw [hnotinl f hf]; rfl⟩)
          have h9 := sum_map_le hwf
          omega

/-- An array's function refers to the array's inputs, in order. -/
theorem mkExpr_funcRefs_eq {g : Graph V} {a : Nat} {e : DExpr} (h : mkExpr g a = .ok e) : funcRefs e = (g.ctx a).inputs := by
  unfold mkExpr at h
  cases hc : g.ctx a <;> simp only [hc, Ctx.inputs] at h ⊢
  case const => cases h; rfl
  case unary => cases h; rfl
  case binary => cases h; rfl
  case contiguous => cases h; rfl
  case sum x axis kd =>
    unfold reduceExpr at h
    simp only [bind, Except.bind] at h
    split at h
    · cases h
    · cases h; rfl
  case pad x dim b c =>
    unfold padExpr at h
    simp only [bind, Except.bind] at h
    split at h
    · cases h
    · split at h
      · cases h
      · cases h; rfl
  case dilate x dim st =>
    unfold dilateExpr at h
    simp only [bind, Except.bind] at h
    split at h
    · cases h
    · cases h; rfl
  all_goals
    simp only [bind, Except.bind] at h
    split at h
    · cases h
    · cases h; rfl

theorem Reach.cases_input {g : Graph V} {a i : Nat} (h : Reach g a i) : i = a ∨ ∃ x ∈ (g.ctx a).inputs, Reach g x i := by
  induction h with
  | refl => exact Or.inl rfl
  | step hr hx ih =>
    rcases ih with rfl | ⟨y, hy, hyr⟩
    · exact Or.inr ⟨_, hx, .refl⟩
    · exact Or.inr ⟨y, hy, .step hyr hx⟩

/-- Conversion raises TypeError if something was reshaped to `()`. -/
theorem arrToFunc_error {g : Graph V} (h : WF g) (fuel : Nat) : ∀ a t, a < fuel → a < g.length → ¬ NoScalarReshape g a → Fresh g t →
    arrToFunc g fuel a t = .error .typeError := by
  induction fuel with
  | zero => intro a t h; omega
  | succ fuel ih =>
    intro a t hf ha hns ht
    unfold arrToFunc
    cases hta : t a with
    | some F => exact absurd (ht.entry a F hta).2.1 hns
    | none =>
      simp only
      have hlt := h.inputs_lt ha
      have hfold : ∀ (xs : List Nat) (t : Tbl), (∀ x ∈ xs, x < fuel ∧ x < g.length) → Fresh g t →
          ((∃ x ∈ xs, ¬ NoScalarReshape g x) → xs.foldlM (fun m x => arrToFunc g fuel x m) t = .error .typeError) ∧
          ((∀ x ∈ xs, NoScalarReshape g x) → ∃ t', xs.foldlM (fun m x => arrToFunc g fuel x m) t = .ok t') := by
        intro xs
        induction xs with
        | nil => intro t _ _; exact ⟨by simp, fun _ => ⟨t, rfl⟩⟩
        | cons x xs ihx =>
          intro t hxs ht
          obtain ⟨h1, h2⟩ := hxs x (by simp)
          by_cases hb : NoScalarReshape g x
          · obtain ⟨t1, e1, f1, _⟩ := arrToFunc_ok h fuel x t h1 h2 hb ht
            obtain ⟨i1, i2⟩ := ihx t1 (fun y hy => hxs y (by simp [hy])) f1
            rw [List.foldlM_cons, e1]
            refine ⟨fun ⟨y, hy, hyb⟩ => ?_, fun hall => i2 (fun y hy => hall y (by simp [hy]))⟩
            rcases List.mem_cons.1 hy with rfl | hy
            · exact absurd hb hyb
            · exact i1 ⟨y, hy, hyb⟩
          · rw [List.foldlM_cons, ih x t h1 h2 hb ht]
            exact ⟨fun _ => rfl, fun hall => absurd (hall x (by simp)) hb⟩
      obtain ⟨i1, i2⟩ := hfold (g.ctx a).inputs t (fun x hx => ⟨by have := hlt x hx; omega, by have := hlt x hx; omega⟩) ht
      by_cases hin : ∃ x ∈ (g.ctx a).inputs, ¬ NoScalarReshape g x
      · rw [i1 hin]; rfl
      · have hall : ∀ x ∈ (g.ctx a).inputs, NoScalarReshape g x := fun x hx => by
          by_contra hb; exact hin ⟨x, hx, hb⟩
        obtain ⟨t', e'⟩ := i2 hall
        rw [e']
        have hbad : ScalarReshape g a := by
          by_contra hs
          apply hns
          intro i hri
          rcases hri.cases_input with rfl | ⟨x, hx, hxr⟩
          · exact hs
          · exact hall x hx i hxr
        obtain ⟨x, hx⟩ := hbad
        have hsh : g.shape a = [] := by
          have := h a ha
          unfold NodeOK at this
          have hx' : (g.nd a).ctx = .reshape x [] := hx
          rw [hx'] at this
          have h2 := this.2.2.2.2.2
          show (g.nd a).shape = []
          rw [h2]; rfl
        have hm : mkExpr g a = .error .typeError := by
          unfold mkExpr
          simp only [hx, hsh, outLoops, reshapeIdx, List.zipIdx_nil, List.map_nil, List.zipWith_nil_left, reduceAdd]; rfl
        simp only [bind, Except.bind, hm]

theorem nonconst_op {g : Graph V} (h : WF g) {a : Nat} (ha : a < g.length) (hc : g.ctx a ≠ .const) : (g.ctx a).op.isConst = false := by
  cases hcc : g.ctx a <;> simp only [Ctx.op] <;> try decide
  · exact absurd hcc hc
  · have := h a ha
    unfold NodeOK at this
    have hcc' : (g.nd a).ctx = _ := hcc
    rw [hcc'] at this
    exact unary_not_const this.2.1
  · have := h a ha
    unfold NodeOK at this
    have hcc' : (g.nd a).ctx = _ := hcc
    rw [hcc'] at this
    exact binary_not_const this.2.2.1

end Whale
