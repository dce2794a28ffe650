import Verif.Spec.KeySize
import Verif.Proofs.OneKernel
/-
C58: the cache key of an array writes out its formula without sharing.
-/
namespace Whale
open Mat Algo Codegen Hist
variable {V : Type}

theorem formulaOps_eq {g : Graph V} (h : WF g) {i : Nat} (hi : i < g.length) : formulaOps g i = opsOf g i + ((g.ctx i).inputs.map (formulaOps g)).sum := by
  rw [formulaOps]
  congr 2
  apply List.map_congr_left
  intro x hx
  rw [dif_pos (h.inputs_lt hi x hx)]

/-- The operations of an expression and of everything it refers to, written out. -/
def written (W : Nat → Nat) (e : DExpr) : Nat := e.ops + ((funcRefs e).map W).sum

/-- Every function of the table writes out the same number of operations as in the beginning. -/
def WrittenOK (W : Nat → Nat) (t : Tbl) : Prop := ∀ i F, t i = some F → written W F.expr = W i

theorem fuseE_written {W : Nat → Nat} {visit : Nat → List IExpr → Tbl → Except Err (DExpr × Tbl)}
    (hv : ∀ f idx t e' t', visit f idx t = .ok (e', t') → WrittenOK W t → WrittenOK W t' ∧ written W e' = written W (.func f idx)) :
    ∀ {e e' : DExpr} {t t' : Tbl}, fuseE visit e t = .ok (e', t') → WrittenOK W t → WrittenOK W t' ∧ written W e' = written W e
  | .const c, _, _, _, h, ht => by cases h; exact ⟨ht, rfl⟩
  | .buf n idx, _, _, _, h, ht => by cases h; exact ⟨ht, rfl⟩
  | .un op e, _, _, _, h, ht => by
    simp only [fuseE] at h
    obtain ⟨⟨e1, t1⟩, h1, h⟩ := except_bind_ok h
    cases h
    obtain ⟨i1, i2⟩ := fuseE_written hv h1 ht
    exact ⟨i1, by simp only [written, DExpr.ops, funcRefs] at i2 ⊢; omega⟩
  | .red op e rs, _, _, _, h, ht => by
    simp only [fuseE] at h
    obtain ⟨⟨e1, t1⟩, h1, h⟩ := except_bind_ok h
    cases h
    obtain ⟨i1, i2⟩ := fuseE_written hv h1 ht
    exact ⟨i1, by simp only [written, DExpr.ops, funcRefs] at i2 ⊢; omega⟩
  | .bin op l r, _, _, _, h, ht => by
    simp only [fuseE] at h
    obtain ⟨⟨e1, t1⟩, h1, h⟩ := except_bind_ok h
    obtain ⟨⟨e2, t2⟩, h2, h⟩ := except_bind_ok h
    cases h
    obtain ⟨i1, i2⟩ := fuseE_written hv h1 ht
    obtain ⟨j1, j2⟩ := fuseE_written hv h2 i1
    exact ⟨j1, by simp only [written, DExpr.ops, funcRefs, List.map_append, List.sum_append] at i2 j2 ⊢; omega⟩
  | .tern op c l r, _, _, _, h, ht => by
    simp only [fuseE] at h
    obtain ⟨⟨e1, t1⟩, h1, h⟩ := except_bind_ok h
    obtain ⟨⟨e2, t2⟩, h2, h⟩ := except_bind_ok h
    cases h
    obtain ⟨i1, i2⟩ := fuseE_written hv h1 ht
    obtain ⟨j1, j2⟩ := fuseE_written hv h2 i1
    exact ⟨j1, by simp only [written, DExpr.ops, funcRefs, List.map_append, List.sum_append] at i2 j2 ⊢; omega⟩
  | .func f idx, e', t, t', h, ht => hv f idx t e' t' h ht

theorem tryFuse_written {W : Nat → Nat} {rc : RC} (fuel : Nat) : ∀ {e e' : DExpr} {t t' : Tbl}, tryFuse rc fuel e t = .ok (e', t') → WrittenOK W t →
    WrittenOK W t' ∧ written W e' = written W e := by
  induction fuel with
  | zero => intro e e' t t' h; cases h
  | succ fuel ih =>
    intro e e' t t' h ht
    unfold tryFuse at h
    refine fuseE_written ?_ h ht
    intro f idx t e' t' h ht
    have hpf : written W (.func f idx) = W f := by simp [written, DExpr.ops, funcRefs]
    cases hF : t f with
    | none => simp [hF] at h
    | some F =>
      simp only [hF] at h
      split at h
      · cases h
      · split at h
        · obtain ⟨e1, h1, h⟩ := except_bind_ok h
          obtain ⟨i1, i2⟩ := ih h ht
          refine ⟨i1, ?_⟩
          rw [i2, hpf, ← ht f F hF]
          simp only [written, (replaceD_ops h1).1, (replaceD_refs h1).1]
        · obtain ⟨⟨e1, t1⟩, h1, h⟩ := except_bind_ok h
          cases h
          obtain ⟨i1, i2⟩ := ih h1 ht
          refine ⟨?_, rfl⟩
          intro i G hG
          by_cases hif : i = f
          · subst hif
            rw [Tbl.set_same, Option.some.injEq] at hG
            subst hG
            simp only
            rw [i2, ht i F hF]
          · rw [Tbl.set_ne _ _ hif] at hG
            exact i1 i G hG

/-- After conversion every function writes out the formula of its array. -/
theorem convert_written {g : Graph V} (h : WF g) {a : Nat} (ha : a < g.length) (hns : NoScalarReshape g a)
    {funcs : List Nat} {t : Tbl} (hconv : convert g a = .ok (funcs, t)) : WrittenOK (formulaOps g) t := by
  obtain ⟨t1, e1, f1, _, s1, r1⟩ := arrToFunc_ok h (a + 2) a Tbl.empty (by omega) ha hns (Fresh.empty g)
  obtain ⟨F, hF⟩ := Option.isSome_iff_exists.1 s1
  have hw1 : WrittenOK (formulaOps g) t1 := by
    intro i G hG
    obtain ⟨hi, _, e, he, rfl⟩ := f1.entry i G hG
    have : written (formulaOps g) e = formulaOps g i := by
      rw [formulaOps_eq h hi, written, mkExpr_ops he, mkExpr_funcRefs_eq he]
    exact this
  unfold convert at hconv
  simp only [e1, bind, Except.bind, hF] at hconv
  cases h2 : countRefs t1 (a + 2) F.expr (fun _ => 0) with
  | error x => simp [h2] at hconv
  | ok rc =>
    simp only [h2] at hconv
    cases h3 : tryFuse rc (a + 2) F.expr t1 with
    | error x => simp [h3] at hconv
    | ok p =>
      obtain ⟨e', t2⟩ := p
      simp only [h3] at hconv
      cases h4 : topo (t2.set a { outLoops := F.outLoops, outShape := F.outShape, outDtype := F.outDtype, expr := e', outBuffer := base g a }) (a + 2) a ([], []) with
      | error x => simp [h4] at hconv
      | ok q =>
        obtain ⟨sn, fs⟩ := q
        simp only [h4, pure, Except.pure, Except.ok.injEq, Prod.mk.injEq] at hconv
        obtain ⟨rfl, rfl⟩ := hconv
        obtain ⟨w2, w3⟩ := tryFuse_written (W := formulaOps g) (a + 2) h3 hw1
        intro i G hG
        by_cases hia : i = a
        · subst hia
          rw [Tbl.set_same, Option.some.injEq] at hG
          subst hG
          simp only
          rw [w3, hw1 i F hF]
        · rw [Tbl.set_ne _ _ hia] at hG
          exact w2 i G hG

theorem ekeyE_ops {g : Graph V} {W : Nat → Nat} {visit : Nat → List Nat → Except Err (EKey × List Nat)}
    (hv : ∀ f ids k ids', visit f ids = .ok (k, ids') → k.ops = W f) :
    ∀ (e : DExpr) (ids : List Nat) (k : EKey) (ids' : List Nat), ekeyE g visit e ids = .ok (k, ids') → e.noTern = true → k.ops = written W e
  | .const c, ids, k, ids', h, _ => by cases h; rfl
  | .un op e, ids, k, ids', h, hn => by
    simp only [ekeyE] at h
    obtain ⟨⟨k1, i1⟩, h1, h2⟩ := except_bind_ok h
    cases h2
    have := ekeyE_ops hv e _ _ _ h1 hn
    simp only [EKey.ops, written, DExpr.ops, funcRefs] at this ⊢; omega
  | .bin op l r, ids, k, ids', h, hn => by
    simp only [ekeyE] at h
    obtain ⟨⟨k1, i1⟩, h1, h⟩ := except_bind_ok h
    obtain ⟨⟨k2, i2⟩, h2, h⟩ := except_bind_ok h
    cases h
    simp only [DExpr.noTern, Bool.and_eq_true] at hn
    have a1 := ekeyE_ops hv l _ _ _ h1 hn.1
    have a2 := ekeyE_ops hv r _ _ _ h2 hn.2
    simp only [EKey.ops, written, DExpr.ops, funcRefs, List.map_append, List.sum_append] at a1 a2 ⊢; omega
  | .tern .., ids, k, ids', h, hn => by cases hn
  | .red op e rs, ids, k, ids', h, hn => by
    simp only [ekeyE] at h
    obtain ⟨⟨k1, i1⟩, h1, h2⟩ := except_bind_ok h
    cases h2
    have := ekeyE_ops hv e _ _ _ h1 hn
    simp only [EKey.ops, written, DExpr.ops, funcRefs] at this ⊢; omega
  | .func f idx, ids, k, ids', h, hn => by
    simp only [ekeyE] at h
    obtain ⟨⟨k1, i1⟩, h1, h2⟩ := except_bind_ok h
    cases h2
    have := hv f _ _ _ h1
    simp [EKey.ops, written, DExpr.ops, funcRefs, this]
  | .buf n idx, ids, k, ids', h, _ => by cases h; rfl

theorem ekey_ops {g : Graph V} {W : Nat → Nat} {t : Tbl} (ht : WrittenOK W t) (hn : TblNoTern t) (fuel : Nat) :
    ∀ (e : DExpr) (ids : List Nat) (k : EKey) (ids' : List Nat), ekey g t fuel e ids = .ok (k, ids') → e.noTern = true → k.ops = written W e := by
  induction fuel with
  | zero => intro e ids k ids' h; cases h
  | succ fuel ih =>
    intro e ids k ids' h he
    unfold ekey at h
    refine ekeyE_ops (fun f ids k ids' h => ?_) e ids k ids' h he
    cases hF : t f with
    | none => rw [hF] at h; cases h
    | some F =>
      rw [hF] at h
      rw [ih _ _ _ _ h (hn f F hF), ht f F hF]

/-- The key of a kernel writes out the formula of the array it computes. -/
theorem cacheKey_ops {g : Graph V} {W : Nat → Nat} {t : Tbl} (ht : WrittenOK W t) (hn : TblNoTern t) {fuel f : Nat} {F : Func} (hF : t f = some F) {sch : Schedule} {k : Key}
    (h : cacheKey g t fuel F sch = .ok k) : k.expr.ops = W f := by
  simp only [cacheKey] at h
  obtain ⟨⟨e1, i1⟩, x1, h⟩ := except_bind_ok h
  cases h
  rw [ekey_ops ht hn fuel _ _ _ _ x1 (hn f F hF), ht f F hF]

/-- The keys of the kernels that materializing `a` launches. -/
theorem launchLog_ops {isGpu : Bool} {g : Graph V} (h : WF g) {a : Nat} (ha : a < g.length) (hv : (g.ctx a).op.isView = false) (hc : g.ctx a ≠ .const) (hns : NoScalarReshape g a)
    (hcond : ∀ i, Reach g a i → ¬ Conditional g i) :
    ∃ funcs t, convert g a = .ok (funcs, t) ∧ a ∈ funcs ∧ (launchLog isGpu g a).map (fun p => p.1.expr.ops) = funcs.map (formulaOps g) := by
  obtain ⟨funcs, t, e, hnd, ⟨pre, hpre⟩, _, htg, _⟩ := convert_good h ha hns hv hc
  refine ⟨funcs, t, e, by rw [hpre]; simp, ?_⟩
  have hw := convert_written h ha hns e
  have hn := (convert_uses h ha hns hv hc e).2 hcond
  have hcop : (g.ctx a).op.isConst = false := nonconst_op h ha hc
  obtain ⟨scheds, es, hl, _⟩ := schedAll_ok (isGpu := isGpu) htg funcs (fun _ h => h)
  have hz : (funcs.zip scheds).map (·.1) = funcs := by apply List.map_fst_zip; omega
  have : ∀ L : List (Nat × Schedule), (∀ q ∈ L, q.1 ∈ funcs) → (L.filterMap (plan1 g t (a + 2))).map (fun p => p.1.expr.ops) = (L.map (·.1)).map (formulaOps g) := by
    intro L
    induction L with
    | nil => intro _; rfl
    | cons q L ih =>
      intro hq
      have ih := ih (fun r hr => hq r (List.mem_cons_of_mem _ hr))
      have hqf := hq q (by simp)
      obtain ⟨hqa, _, F, hF, _, hrefs⟩ := htg.entry q.1 hqf
      obtain ⟨k, hk⟩ := cacheKey_ok (g := g) (t := t) (S := fun f => f ∈ funcs) (fun f hf => by
        obtain ⟨_, _, F, hF, _, hr⟩ := htg.entry f hf
        exact ⟨F, hF, hr⟩) hqf hF (fuel := a + 2) (by omega) q.2
      have hp : plan1 g t (a + 2) q = some (k, Codegen.codegen g t F q.2 ⟨(Algo.args F.expr).1, (Algo.args F.expr).2⟩ 0) := by
        unfold plan1; simp only [hF, hk]
      rw [List.filterMap_cons_some hp]
      simp only [List.map_cons, cacheKey_ops hw hn hF hk, ih]
  unfold launchLog launchLogF
  simp only [hcop, hv, e, es, Bool.false_eq_true, if_false]
  rw [this _ (fun q hq => (List.of_mem_zip (a := q.1) (b := q.2) hq).1), hz]

theorem runAll_append {b : Backend V} {w w' : World V} {cs ds : List (Call V)} (h : runAll b w cs = .ok w') : runAll b w (cs ++ ds) = runAll b w' ds := by
  induction cs generalizing w with
  | nil => cases h; rfl
  | cons c cs ih =>
    simp only [List.cons_append, runAll] at h ⊢
    cases hs : step b w c with
    | error e => rw [hs] at h; cases h
    | ok p => rw [hs] at h; simp only at h ⊢; exact ih h

/-- What the graph of the doubling program looks like. -/
structure Doubled (w : World V) (n : Nat) : Prop where
  len : w.g.length = n + 1
  zero : w.g.ctx 0 = .const
  succ : ∀ i, i < n → w.g.ctx (i + 1) = .binary .Add i i
  shape : ∀ i, i ≤ n → w.g.shape i = [2]
  log : w.log = []

theorem doubling_run {b : Backend V} (hb : Faithful b) (u v : V) (n : Nat) : ∃ w, runAll b Mat.init (doubling u v n) = .ok w ∧ Reachable b w ∧ Doubled w n := by
  induction n with
  | zero =>
    refine ⟨_, rfl, ?_, ?_⟩
    · exact .call (c := .array (.node [.leaf u, .leaf v])) .init (.inr (show Rect _ from by simp [Rect, shapeOf, HasShape, HasShapeL])) rfl
    · exact ⟨rfl, rfl, fun i hi => absurd hi (Nat.not_lt_zero _), fun i hi => by cases Nat.le_zero.1 hi; rfl, rfl⟩
  | succ n ih =>
    obtain ⟨w, e, hr, hd⟩ := ih
    have hsh : w.g.shape n = [2] := hd.shape n (by omega)
    have hs : step b w (.bin .add n n) = .ok (.arr (n + 1), { w with g := w.g ++ [ND.elemwiseNode w.g (.binary .Add n n) n] }) := by
      unfold step
      rw [if_pos (by simp [Call.arrays, hd.len])]
      simp [exec1, madeE, ND.binary, ND.broadcasted, hsh, ND.broadcastShapes, ND.broadcastDims, bind, Except.bind, pure, Except.pure, Graph.push, hd.len, made, Bn.op]
    have hnd : ∀ i, i ≤ n → Graph.nd (w.g ++ [ND.elemwiseNode w.g (.binary .Add n n) n]) i = w.g.nd i := by
      intro i hi
      unfold Graph.nd
      rw [List.getD_eq_getElem?_getD, List.getD_eq_getElem?_getD, List.getElem?_append_left (by rw [hd.len]; omega)]
    have hndl : Graph.nd (w.g ++ [ND.elemwiseNode w.g (.binary .Add n n) n]) (n + 1) = ND.elemwiseNode w.g (.binary .Add n n) n := by
      have := nd_push w.g (ND.elemwiseNode w.g (.binary .Add n n) n)
      rwa [hd.len] at this
    refine ⟨_, ?_, .call (c := .bin .add n n) hr (.inr trivial) (by unfold next; rw [hs]), ?_⟩
    · have hl : doubling u v (n + 1) = doubling u v n ++ [.bin .add n n] := by simp [doubling, List.range_succ]
      rw [hl, runAll_append e]
      simp only [runAll, hs]
    · refine ⟨by simp [hd.len], by show (Graph.nd _ 0).ctx = _; rw [hnd 0 (by omega)]; exact hd.zero, ?_, ?_, hd.log⟩
      · intro i hi
        show (Graph.nd _ (i + 1)).ctx = _
        by_cases hin : i = n
        · subst hin; rw [hndl]; rfl
        · rw [hnd (i + 1) (by omega)]; exact hd.succ i (by omega)
      · intro i hi
        show (Graph.nd _ i).shape = _
        by_cases hin : i = n + 1
        · subst hin; rw [hndl]; exact hsh
        · rw [hnd i (by omega)]; exact hd.shape i (by omega)

theorem Doubled.formula {w : World V} {n : Nat} (h : Doubled w n) (hw : WF w.g) : ∀ i, i ≤ n → formulaOps w.g i + 1 = 2 ^ i
  | 0, _ => by rw [formulaOps_eq hw (by rw [h.len]; omega)]; simp [opsOf, h.zero, Ctx.inputs]
  | i + 1, hi => by
    rw [formulaOps_eq hw (by rw [h.len]; omega)]
    have := h.formula hw i (by omega)
    simp only [opsOf, h.succ i (by omega), Ctx.inputs, List.map_cons, List.map_nil, List.sum_cons, List.sum_nil]
    rw [Nat.pow_succ]; omega

end Whale
