import Verif.Proofs.Convert
/-
Fusion preserves the meaning of every function.
-/
namespace Whale
open Algo
variable {V : Type} [Lim]

/-! ### substitution -/

theorem evalIs_getElem {ρ : LEnv} {es : List IExpr} {vs : List Int} (h : evalIs ρ es = some vs) {k : Nat} (hk : k < es.length) :
    evalI ρ es[k] = some (geti vs k) := by
  induction es generalizing vs k with
  | nil => simp at hk
  | cons e es ih =>
    simp only [evalIs, Option.bind_eq_bind, Option.bind_eq_some_iff, pure, Option.some.injEq] at h
    obtain ⟨v, hv, ws, hws, rfl⟩ := h
    cases k with
    | zero => simpa using hv
    | succ k => simpa only [List.getElem_cons_succ, geti_cons_succ] using ih hws (by simpa using hk)

theorem IWF.mono {S T : List LoopIndex} (hST : ∀ l ∈ S, l ∈ T) {e : IExpr} (h : IWF S e) : IWF T e := by
  induction e with
  | index l => exact hST l h
  | const c => trivial
  | bin op l r ihl ihr => exact ⟨h.1, ihl h.2.1, ihr h.2.2⟩

theorem replaceI_ok {S ls : List LoopIndex} {is : List IExpr} (hn : ls.Nodup) (hl : ls.length = is.length) (hw : ∀ i ∈ is, IWF S i)
    {e : IExpr} (he : IWF ls e) :
    ∃ e', replaceI (ls.zip is) e = .ok e' ∧ IWF S e' ∧
      ∀ ρ j, evalIs ρ is = some j → evalI ρ e' = evalI (LEnv.empty.bind ls j) e := by
  induction e with
  | index l =>
    obtain ⟨k, hk, rfl⟩ := List.mem_iff_getElem.1 (show l ∈ ls from he)
    refine ⟨is[k], ?_, hw _ (List.getElem_mem _), fun ρ j hj => ?_⟩
    · simp only [replaceI, lookup_zip_getElem hn hl hk]; rfl
    · have hjl := evalIs_length hj
      rw [evalIs_getElem hj (by omega)]
      simp only [evalI]
      rw [bind_getElem hn (by omega) hk]
  | const c => exact ⟨_, rfl, trivial, fun _ _ _ => rfl⟩
  | bin op l r ihl ihr =>
    obtain ⟨l', e1, w1, s1⟩ := ihl he.2.1
    obtain ⟨r', e2, w2, s2⟩ := ihr he.2.2
    refine ⟨.bin op l' r', by simp only [replaceI, e1, e2]; rfl, ⟨he.1, w1, w2⟩, fun ρ j hj => ?_⟩
    simp only [evalI, s1 ρ j hj, s2 ρ j hj]

theorem replaceIs_ok {S ls : List LoopIndex} {is : List IExpr} (hn : ls.Nodup) (hl : ls.length = is.length) (hw : ∀ i ∈ is, IWF S i)
    {es : List IExpr} (he : ∀ e ∈ es, IWF ls e) :
    ∃ es', es.mapM (replaceI (ls.zip is)) = .ok es' ∧ es'.length = es.length ∧ (∀ e ∈ es', IWF S e) ∧
      ∀ ρ j, evalIs ρ is = some j → evalIs ρ es' = evalIs (LEnv.empty.bind ls j) es := by
  induction es with
  | nil => exact ⟨[], rfl, rfl, by simp, fun _ _ _ => rfl⟩
  | cons e es ih =>
    obtain ⟨e', e1, w1, s1⟩ := replaceI_ok hn hl hw (he e (by simp))
    obtain ⟨es', e2, l2, w2, s2⟩ := ih (fun x hx => he x (by simp [hx]))
    refine ⟨e' :: es', by rw [List.mapM_cons, e1, e2]; rfl, by simp [l2], ?_, fun ρ j hj => ?_⟩
    · intro x hx
      rcases List.mem_cons.1 hx with rfl | hx
      · exact w1
      · exact w2 x hx
    · simp only [evalIs, s1 ρ j hj, s2 ρ j hj]

theorem replaceD_ok {g : Graph V} {S ls : List LoopIndex} {is : List IExpr} (hn : ls.Nodup) (hl : ls.length = is.length) (hw : ∀ i ∈ is, IWF S i)
    {lvl : Nat} {e : DExpr} (he : DWF g ls lvl e) :
    ∃ e', replaceD (ls.zip is) e = .ok e' ∧ DWF g S lvl e' ∧ funcRefs e' = funcRefs e ∧
      ∀ A rd ρ j, evalIs ρ is = some j → evalD (V := V) A rd ρ e' = evalD A rd (LEnv.empty.bind ls j) e := by
  induction e with
  | const c => exact ⟨_, rfl, trivial, rfl, fun _ _ _ _ _ => rfl⟩
  | un op e ih =>
    obtain ⟨e', e1, w1, f1, s1⟩ := ih he.2
    exact ⟨.un op e', by simp only [replaceD, e1]; rfl, ⟨he.1, w1⟩, f1, fun A rd ρ j hj => by simp only [evalD, s1 A rd ρ j hj]⟩
  | bin op l r ihl ihr =>
    obtain ⟨l', e1, w1, f1, s1⟩ := ihl he.2.1
    obtain ⟨r', e2, w2, f2, s2⟩ := ihr he.2.2
    exact ⟨.bin op l' r', by simp only [replaceD, e1, e2]; rfl, ⟨he.1, w1, w2⟩, by simp only [funcRefs, f1, f2],
      fun A rd ρ j hj => by simp only [evalD, s1 A rd ρ j hj, s2 A rd ρ j hj]⟩
  | tern op c t f iht ihf =>
    obtain ⟨c', e0, w0, s0⟩ := replaceI_ok hn hl hw he.2.1
    obtain ⟨l', e1, w1, f1, s1⟩ := iht he.2.2.1
    obtain ⟨r', e2, w2, f2, s2⟩ := ihf he.2.2.2
    exact ⟨.tern op c' l' r', by simp only [replaceD, e0, e1, e2]; rfl, ⟨he.1, w0, w1, w2⟩, by simp only [funcRefs, f1, f2],
      fun A rd ρ j hj => by simp only [evalD, s0 ρ j hj, s1 A rd ρ j hj, s2 A rd ρ j hj]⟩
  | red => exact he.elim
  | func f idx =>
    obtain ⟨es', e1, l1, w1, s1⟩ := replaceIs_ok hn hl hw he.2.2
    exact ⟨.func f es', by simp only [replaceD, e1]; rfl, ⟨he.1, by rw [l1]; exact he.2.1, w1⟩, rfl,
      fun A rd ρ j hj => by simp only [evalD, s1 ρ j hj]⟩
  | buf n idx =>
    obtain ⟨es', e1, l1, w1, s1⟩ := replaceIs_ok hn hl hw he.2.2.2.2
    exact ⟨.buf n es', by simp only [replaceD, e1]; rfl, ⟨he.1, he.2.1, he.2.2.1, by rw [l1]; exact he.2.2.2.1, w1⟩, rfl,
      fun A rd ρ j hj => by simp only [evalD, s1 ρ j hj]⟩

theorem DWF.mono {g : Graph V} {S : List LoopIndex} {l l' : Nat} (hl : l ≤ l') {e : DExpr} (h : DWF g S l e) : DWF g S l' e := by
  induction e with
  | const c => trivial
  | un op e ih => exact ⟨h.1, ih h.2⟩
  | bin op l r ihl ihr => exact ⟨h.1, ihl h.2.1, ihr h.2.2⟩
  | tern op c t f iht ihf => exact ⟨h.1, h.2.1, iht h.2.2.1, ihf h.2.2.2⟩
  | red => exact h.elim
  | func f idx => exact ⟨Nat.lt_of_lt_of_le h.1 hl, h.2⟩
  | buf n idx => exact ⟨h.1, Nat.le_trans h.2.1 hl, h.2.2⟩

theorem DWF.evalR_eq {g : Graph V} {S : List LoopIndex} {l : Nat} {e : DExpr} (h : DWF g S l e) (A : Scalar V) (rd : Nat → List Int → Option V) (ρ : LEnv) :
    evalR A rd ρ e = evalD A rd ρ e := by
  cases e <;> first | rfl | exact h.elim

/-! ### fusion -/

/-- Functions with a positive reference count have an entry and only refer to such functions. -/
def RcOK (t : Tbl) (rc : RC) : Prop := ∀ i, rc i ≠ 0 → ∃ F, t i = some F ∧ ∀ f ∈ funcRefs F.expr, rc f ≠ 0

/-- What fusing an expression guarantees. -/
structure Fused (g : Graph V) (rc : RC) (t : Tbl) (e e' : DExpr) (t' : Tbl) : Prop where
  tbl : TblOK g t'
  rcOK : RcOK t' rc
  dom : ∀ i, (t' i).isSome ↔ (t i).isSome
  refs : ∀ f ∈ funcRefs e', rc f ≠ 0
  sem : ∀ A ρ v, evalD A (denRd A g) ρ e = some v → evalD A (denRd A g) ρ e' = some v

theorem fuseE_ok {g : Graph V} {rc : RC} {S : List LoopIndex} {lvl : Nat} {visit : Nat → List IExpr → Tbl → Except Err (DExpr × Tbl)}
    (hv : ∀ f idx t, DWF g S lvl (.func f idx) → rc f ≠ 0 → TblOK g t → RcOK t rc →
      ∃ e' t', visit f idx t = .ok (e', t') ∧ DWF g S lvl e' ∧ Fused g rc t (.func f idx) e' t')
    {e : DExpr} (he : DWF g S lvl e) (hr : ∀ f ∈ funcRefs e, rc f ≠ 0) {t : Tbl} (ht : TblOK g t) (hrc : RcOK t rc) :
    ∃ e' t', fuseE visit e t = .ok (e', t') ∧ DWF g S lvl e' ∧ Fused g rc t e e' t' := by
  induction e generalizing t with
  | const c => exact ⟨_, t, rfl, trivial, ht, hrc, fun _ => Iff.rfl, by simp [funcRefs], fun _ _ _ h => h⟩
  | buf n idx => exact ⟨_, t, rfl, he, ht, hrc, fun _ => Iff.rfl, by simp [funcRefs], fun _ _ _ h => h⟩
  | un op e ih =>
    obtain ⟨e', t', e1, w1, f1⟩ := ih he.2 hr ht hrc
    refine ⟨.un op e', t', by simp only [fuseE, e1]; rfl, ⟨he.1, w1⟩, f1.tbl, f1.rcOK, f1.dom, f1.refs, fun A ρ v h => ?_⟩
    simp only [evalD, Option.bind_eq_bind, Option.bind_eq_some_iff] at h ⊢
    obtain ⟨u, hu, h⟩ := h
    exact ⟨u, f1.sem A ρ u hu, h⟩
  | bin op l r ihl ihr =>
    obtain ⟨l', t1, e1, w1, f1⟩ := ihl he.2.1 (fun f hf => hr f (List.mem_append_left _ hf)) ht hrc
    obtain ⟨r', t2, e2, w2, f2⟩ := ihr he.2.2 (fun f hf => hr f (List.mem_append_right _ hf)) f1.tbl f1.rcOK
    refine ⟨.bin op l' r', t2, by simp only [fuseE, e1]; simp only [bind, Except.bind, e2]; rfl, ⟨he.1, w1, w2⟩, f2.tbl, f2.rcOK,
      fun i => (f2.dom i).trans (f1.dom i), ?_, fun A ρ v h => ?_⟩
    · intro f hf
      rcases List.mem_append.1 hf with hf | hf
      · exact f1.refs f hf
      · exact f2.refs f hf
    · simp only [evalD, Option.bind_eq_bind, Option.bind_eq_some_iff] at h ⊢
      obtain ⟨u, hu, w, hw, h⟩ := h
      exact ⟨u, f1.sem A ρ u hu, w, f2.sem A ρ w hw, h⟩
  | tern op c l r ihl ihr =>
    obtain ⟨l', t1, e1, w1, f1⟩ := ihl he.2.2.1 (fun f hf => hr f (List.mem_append_left _ hf)) ht hrc
    obtain ⟨r', t2, e2, w2, f2⟩ := ihr he.2.2.2 (fun f hf => hr f (List.mem_append_right _ hf)) f1.tbl f1.rcOK
    refine ⟨.tern op c l' r', t2, by simp only [fuseE, e1]; simp only [bind, Except.bind, e2]; rfl, ⟨he.1, he.2.1, w1, w2⟩, f2.tbl, f2.rcOK,
      fun i => (f2.dom i).trans (f1.dom i), ?_, fun A ρ v h => ?_⟩
    · intro f hf
      rcases List.mem_append.1 hf with hf | hf
      · exact f1.refs f hf
      · exact f2.refs f hf
    · simp only [evalD, Option.bind_eq_bind, Option.bind_eq_some_iff] at h ⊢
      obtain ⟨u, hu, h⟩ := h
      refine ⟨u, hu, ?_⟩
      split
      · rename_i h0; rw [if_pos h0] at h; exact f1.sem A ρ v h
      · rename_i h0; rw [if_neg h0] at h; exact f2.sem A ρ v h
  | red => exact he.elim
  | func f idx => exact hv f idx t he (hr f (by simp [funcRefs])) ht hrc

theorem hasReduce_DWF {g : Graph V} {i : Nat} {e : DExpr} (h : RootWF g i e) (hr : hasReduce e = false) : DWF g (outLoops g i) i e := by
  cases e <;> first | exact h | simp [hasReduce] at hr

/-- Fusing the body of an array's function. -/
structure FusedRoot (g : Graph V) (rc : RC) (t : Tbl) (i : Nat) (e e' : DExpr) (t' : Tbl) : Prop where
  tbl : TblOK g t'
  rcOK : RcOK t' rc
  dom : ∀ j, (t' j).isSome ↔ (t j).isSome
  refs : ∀ f ∈ funcRefs e', rc f ≠ 0
  wf : RootWF g i e'
  sem : ∀ A ρ v, evalR A (denRd A g) ρ e = some v → evalR A (denRd A g) ρ e' = some v

theorem foldlM_some_mono {α β : Type} {l : List α} {f f' : β → α → Option β} (hf : ∀ b x v, f b x = some v → f' b x = some v) {b v : β}
    (h : l.foldlM f b = some v) : l.foldlM f' b = some v := by
  induction l generalizing b with
  | nil => exact h
  | cons a l ih =>
    rw [List.foldlM_cons] at h ⊢
    simp only [Option.bind_eq_bind, Option.bind_eq_some_iff] at h ⊢
    obtain ⟨u, hu, h⟩ := h
    exact ⟨u, hf _ _ _ hu, ih h⟩

theorem fuseRoot_ok {g : Graph V} {rc : RC} {i : Nat} {visit : Nat → List IExpr → Tbl → Except Err (DExpr × Tbl)}
    (hv : ∀ S f idx t, DWF g S i (.func f idx) → rc f ≠ 0 → TblOK g t → RcOK t rc →
      ∃ e' t', visit f idx t = .ok (e', t') ∧ DWF g S i e' ∧ Fused g rc t (.func f idx) e' t')
    {e : DExpr} (he : RootWF g i e) (hr : ∀ f ∈ funcRefs e, rc f ≠ 0) {t : Tbl} (ht : TblOK g t) (hrc : RcOK t rc) :
    ∃ e' t', fuseE visit e t = .ok (e', t') ∧ FusedRoot g rc t i e e' t' := by
  by_cases hd : DWF g (outLoops g i) i e
  · obtain ⟨e', t', e1, w1, f1⟩ := fuseE_ok (hv (outLoops g i)) hd hr ht hrc
    refine ⟨e', t', e1, f1.tbl, f1.rcOK, f1.dom, f1.refs, ?_, fun A ρ v h => ?_⟩
    · cases e' <;> first | exact w1 | exact w1.elim
    · rw [hd.evalR_eq] at h; rw [w1.evalR_eq]; exact f1.sem A ρ v h
  · cases e with
    | red op b rs =>
      obtain ⟨e', t', e1, w1, f1⟩ := fuseE_ok (hv (outLoops g i ++ rs)) he.2.2 hr ht hrc
      refine ⟨.red op e' rs, t', by simp only [fuseE, e1]; rfl, f1.tbl, f1.rcOK, f1.dom, f1.refs, ⟨he.1, he.2.1, w1⟩, fun A ρ v h => ?_⟩
      simp only [evalR] at h ⊢
      apply foldlM_some_mono ?_ h
      intro b x v h
      simp only [Option.bind_eq_bind, Option.bind_eq_some_iff] at h ⊢
      obtain ⟨u, hu, h⟩ := h
      exact ⟨u, f1.sem A _ u hu, h⟩
    | _ => exact absurd he hd

theorem isBuffer_DWF {g : Graph V} {i : Nat} {e : DExpr} (h : RootWF g i e) (hr : isBufferExpr e = true) : DWF g (outLoops g i) i e := by
  cases e <;> first | exact h | simp [isBufferExpr] at hr

theorem tryFuse_visit {g : Graph V} (rc : RC) (fuel : Nat) : ∀ lvl, lvl ≤ fuel → ∀ S f idx t, DWF g S lvl (.func f idx) → rc f ≠ 0 → TblOK g t → RcOK t rc →
    ∃ e' t', (match t f with
      | none => throw .attrError
      | some F =>
        if rc f = 0 then throw .keyError
        else if isBufferExpr F.expr || (!hasReduce F.expr && rc f == 1) then do
          let fused ← replaceD (F.outLoops.zip idx) F.expr
          tryFuse rc fuel fused t
        else do
          let (e', tbl) ← tryFuse rc fuel F.expr t
          pure (.func f idx, tbl.set f { F with expr := e' })) = Except.ok (e', t') ∧ DWF g S lvl e' ∧ Fused g rc t (.func f idx) e' t' := by
  induction fuel with
  | zero => intro lvl hl S f idx t hw; have := hw.1; omega
  | succ fuel ih =>
    intro lvl hl S f idx t hw hrf ht hrc
    obtain ⟨F, hF, hrefs⟩ := hrc f hrf
    have hE := ht.entry f F hF
    rw [hF]
    simp only [if_neg hrf]
    have hflt := hw.1
    split
    · -- fused into the consumer
      rename_i hfus
      have hd : DWF g (outLoops g f) f F.expr := by
        simp only [Bool.or_eq_true, Bool.and_eq_true, Bool.not_eq_true'] at hfus
        rcases hfus with h | h
        · exact isBuffer_DWF hE.wf h
        · exact hasReduce_DWF hE.wf h.1
      obtain ⟨e1, h1, w1, r1, s1⟩ := replaceD_ok (g := g) (S := S) (outLoops_nodup g f) (is := idx)
        (by rw [outLoops_length, hw.2.1]) hw.2.2 hd
      rw [hE.loops, h1]
      simp only [bind, Except.bind]
      unfold tryFuse
      obtain ⟨e2, t2, h2, w2, f2⟩ := fuseE_ok (fun f' idx' t' => ih f (by omega) S f' idx' t') w1 (by rw [r1]; exact hrefs) ht hrc
      refine ⟨e2, t2, h2, w2.mono (by omega), f2.tbl, f2.rcOK, f2.dom, f2.refs, fun A ρ v h => ?_⟩
      apply f2.sem
      simp only [evalD, Option.bind_eq_bind, Option.bind_eq_some_iff, denRd] at h
      obtain ⟨j, hj, h⟩ := h
      split at h
      · rename_i hvalid
        rw [s1 A _ ρ j hj]
        have := hE.sem A j hvalid
        rw [hd.evalR_eq] at this
        rw [← h]; exact this
      · simp at h
    · -- kept as a kernel of its own
      obtain ⟨e2, t2, h2, f2⟩ := fuseRoot_ok (fun S f' idx' t' => ih f (by omega) S f' idx' t') hE.wf hrefs ht hrc
      have h2' : tryFuse rc (fuel + 1) F.expr t = .ok (e2, t2) := by unfold tryFuse; exact h2
      rw [h2']
      simp only [bind, Except.bind]
      have hentry : EntryOK g f { F with expr := e2 } :=
        ⟨hE.lt, hE.loops, hE.shape, hE.dtype, hE.buffer, f2.wf, fun A idx hv => f2.sem A _ _ (hE.sem A idx hv)⟩
      have hsome : ∀ x, rc x ≠ 0 → ((t2.set f { F with expr := e2 }) x).isSome := by
        intro x hx
        by_cases hxf : x = f
        · subst hxf; simp [Tbl.set_same]
        · rw [Tbl.set_ne _ _ hxf]
          obtain ⟨Fx, hFx, _⟩ := f2.rcOK x hx
          rw [hFx]; rfl
      refine ⟨_, _, rfl, hw, ⟨?_, ?_⟩, ?_, ?_, ?_, fun _ _ _ h => h⟩
      · intro j Fj hj
        by_cases hjf : j = f
        · subst hjf; rw [Tbl.set_same, Option.some.injEq] at hj; subst hj; exact hentry
        · rw [Tbl.set_ne _ _ hjf] at hj; exact f2.tbl.entry j Fj hj
      · intro j Fj hj x hx
        by_cases hjf : j = f
        · subst hjf; rw [Tbl.set_same, Option.some.injEq] at hj; subst hj; exact hsome x (f2.refs x hx)
        · rw [Tbl.set_ne _ _ hjf] at hj
          by_cases hxf : x = f
          · subst hxf; simp [Tbl.set_same]
          · rw [Tbl.set_ne _ _ hxf]; exact f2.tbl.refs j Fj hj x hx
      · intro j hj
        by_cases hjf : j = f
        · subst hjf; exact ⟨_, Tbl.set_same _ _ _, f2.refs⟩
        · rw [Tbl.set_ne _ _ hjf]; exact f2.rcOK j hj
      · intro j
        by_cases hjf : j = f
        · subst hjf; simp [Tbl.set_same, hF]
        · rw [Tbl.set_ne _ _ hjf]; exact f2.dom j
      · simpa [funcRefs] using hrf

/-- Fusing the body of array `i`. -/
theorem tryFuse_ok {g : Graph V} {rc : RC} {fuel i : Nat} (hf : i ≤ fuel) {e : DExpr} (he : RootWF g i e) (hr : ∀ f ∈ funcRefs e, rc f ≠ 0)
    {t : Tbl} (ht : TblOK g t) (hrc : RcOK t rc) :
    ∃ e' t', tryFuse rc (fuel + 1) e t = .ok (e', t') ∧ FusedRoot g rc t i e e' t' := by
  unfold tryFuse
  exact fuseRoot_ok (fun S f idx t => tryFuse_visit rc fuel i hf S f idx t) he hr ht hrc

end Whale
