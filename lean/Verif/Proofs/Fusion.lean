import Verif.Spec.Fusion
import Verif.Proofs.Materialize
import Verif.Proofs.Refs
/-
Every fusion decision gives the same results.
-/
namespace Whale
open Algo Mat
variable {V : Type}

/-- What fusing with two decisions that agree on the table has in common. -/
def SameFuse (r r' : Except Err (DExpr × Tbl)) (t : Tbl) : Prop := r = r' ∧ ∀ e' t', r = .ok (e', t') → ∀ i, (t' i).isSome ↔ (t i).isSome

theorem fuseE_congr {visit visit' : Nat → List IExpr → Tbl → Except Err (DExpr × Tbl)} {D : Nat → Prop}
    (hv : ∀ f idx t, (∀ i, (t i).isSome ↔ D i) → SameFuse (visit f idx t) (visit' f idx t) t)
    (e : DExpr) : ∀ t, (∀ i, (t i).isSome ↔ D i) → SameFuse (fuseE visit e t) (fuseE visit' e t) t := by
  induction e with
  | const c => intro t _; exact ⟨rfl, fun e' t' h => by cases h; exact fun _ => Iff.rfl⟩
  | buf n idx => intro t _; exact ⟨rfl, fun e' t' h => by cases h; exact fun _ => Iff.rfl⟩
  | un op e ih =>
    intro t ht
    obtain ⟨h1, h2⟩ := ih t ht
    refine ⟨by simp only [fuseE]; rw [h1], fun e' t' h => ?_⟩
    simp only [fuseE, bind, Except.bind] at h
    cases hq : fuseE visit e t with
    | error x => simp [hq] at h
    | ok p => simp only [hq, pure, Except.pure, Except.ok.injEq, Prod.mk.injEq] at h; rw [← h.2]; exact h2 p.1 p.2 hq
  | red op e rs ih =>
    intro t ht
    obtain ⟨h1, h2⟩ := ih t ht
    refine ⟨by simp only [fuseE]; rw [h1], fun e' t' h => ?_⟩
    simp only [fuseE, bind, Except.bind] at h
    cases hq : fuseE visit e t with
    | error x => simp [hq] at h
    | ok p => simp only [hq, pure, Except.pure, Except.ok.injEq, Prod.mk.injEq] at h; rw [← h.2]; exact h2 p.1 p.2 hq
  | bin op l r ihl ihr =>
    intro t ht
    obtain ⟨h1, h2⟩ := ihl t ht
    simp only [fuseE, bind, Except.bind, ← h1]
    cases hq : fuseE visit l t with
    | error x => exact ⟨rfl, fun e' t' h => by simp at h⟩
    | ok p =>
      have hp : ∀ i, (p.2 i).isSome ↔ D i := fun i => (h2 p.1 p.2 hq i).trans (ht i)
      obtain ⟨h3, h4⟩ := ihr p.2 hp
      simp only
      refine ⟨by rw [h3], fun e' t' h => ?_⟩
      cases hq2 : fuseE visit r p.2 with
      | error x => simp [hq2] at h
      | ok q =>
        simp only [hq2, pure, Except.pure, Except.ok.injEq, Prod.mk.injEq] at h
        rw [← h.2]; exact fun i => (h4 q.1 q.2 hq2 i).trans (h2 p.1 p.2 hq i)
  | tern op c l r ihl ihr =>
    intro t ht
    obtain ⟨h1, h2⟩ := ihl t ht
    simp only [fuseE, bind, Except.bind, ← h1]
    cases hq : fuseE visit l t with
    | error x => exact ⟨rfl, fun e' t' h => by simp at h⟩
    | ok p =>
      have hp : ∀ i, (p.2 i).isSome ↔ D i := fun i => (h2 p.1 p.2 hq i).trans (ht i)
      obtain ⟨h3, h4⟩ := ihr p.2 hp
      simp only
      refine ⟨by rw [h3], fun e' t' h => ?_⟩
      cases hq2 : fuseE visit r p.2 with
      | error x => simp [hq2] at h
      | ok q =>
        simp only [hq2, pure, Except.pure, Except.ok.injEq, Prod.mk.injEq] at h
        rw [← h.2]; exact fun i => (h4 q.1 q.2 hq2 i).trans (h2 p.1 p.2 hq i)
  | func f idx => intro t ht; exact hv f idx t ht

theorem tryFuse_congr {rc rc' : RC} {D : Nat → Prop} (hrc : ∀ i, D i → rc i = rc' i) (fuel : Nat) :
    ∀ e t, (∀ i, (t i).isSome ↔ D i) → SameFuse (tryFuse rc fuel e t) (tryFuse rc' fuel e t) t := by
  induction fuel with
  | zero => intro e t _; exact ⟨rfl, fun e' t' h => by cases h⟩
  | succ fuel ih =>
    intro e t ht
    unfold tryFuse
    refine fuseE_congr (D := D) ?_ e t ht
    intro f idx t ht
    cases hF : t f with
    | none => exact ⟨rfl, fun e' t' h => by simp at h⟩
    | some F =>
      have hf : rc f = rc' f := hrc f ((ht f).1 (by rw [hF]; rfl))
      simp only [← hf]
      by_cases h0 : rc f = 0
      · simp only [h0, if_true]; exact ⟨rfl, fun e' t' h => by cases h⟩
      · simp only [h0, if_false]
        split
        · simp only [bind, Except.bind]
          cases h1 : replaceD (F.outLoops.zip idx) F.expr with
          | error x => exact ⟨rfl, fun e' t' h => by simp at h⟩
          | ok e1 => exact ih e1 t ht
        · obtain ⟨h1, h2⟩ := ih F.expr t ht
          simp only [bind, Except.bind, ← h1]
          cases hq : tryFuse rc fuel F.expr t with
          | error x => exact ⟨rfl, fun e' t' h => by simp at h⟩
          | ok p =>
            refine ⟨rfl, fun e' t' h i => ?_⟩
            simp only [pure, Except.pure, Except.ok.injEq, Prod.mk.injEq] at h
            rw [← h.2]
            by_cases hi : i = f
            · subst hi; rw [Tbl.set_same, hF]; simp
            · rw [Tbl.set_ne _ _ hi]; exact h2 p.1 p.2 hq i

/-- The code is `convertBy` with its own reference counts. -/
theorem convert_by {g : Graph V} {a : Nat} {r : List Nat × Tbl} (h : convert g a = .ok r) : ∃ rc, convertBy rc g a = .ok r := by
  unfold convert at h
  simp only [bind, Except.bind] at h
  cases h1 : arrToFunc g (a + 2) a Tbl.empty with
  | error x => simp [h1] at h
  | ok t1 =>
    simp only [h1] at h
    cases h2 : t1 a with
    | none => simp [h2] at h
    | some F =>
      simp only [h2] at h
      cases h3 : countRefs t1 (a + 2) F.expr (fun _ => 0) with
      | error x => simp [h3] at h
      | ok rc =>
        simp only [h3] at h
        refine ⟨rc, ?_⟩
        unfold convertBy
        simp only [bind, Except.bind, h1, h2]
        exact h

theorem convertBy_good {g : Graph V} (h : WF g) {a : Nat} (ha : a < g.length) (hns : NoScalarReshape g a) (hv : (g.ctx a).op.isView = false)
    (hc : g.ctx a ≠ .const) {rc0 : RC} (hrc0 : ∀ i, Reach g a i → rc0 i ≠ 0) :
    ∃ funcs t, convertBy rc0 g a = .ok (funcs, t) ∧ funcs.Nodup ∧ (∃ pre, funcs = pre ++ [a]) ∧ Ordered t funcs ∧ TblGood g t a (· ∈ funcs) ∧
      ∀ f ∈ funcs, Reach g a f ∧ (f = a ∨ ∀ F, t f = some F → hasReduce F.expr = true ∨ rc0 f ≠ 1) := by
  obtain ⟨t1, e1, f1, _, s1, r1⟩ := arrToFunc_ok h (a + 2) a Tbl.empty (by omega) ha hns (Fresh.empty g)
  have ht1 := f1.tblOK h
  obtain ⟨F, hF⟩ := Option.isSome_iff_exists.1 s1
  have hE := ht1.entry a F hF
  have hreach : ∀ i, (t1 i).isSome → Reach g a i := fun i hi => (r1 i hi).resolve_left (by simp [Tbl.empty])
  let rc : RC := fun i => if (t1 i).isSome then rc0 i else 0
  have hpos : ∀ i, (t1 i).isSome → rc i ≠ 0 := by
    intro i hi
    simp only [rc, hi, if_true]
    exact hrc0 i (hreach i hi)
  have hrc : RcOK t1 rc := by
    intro i hi
    have : (t1 i).isSome := by
      cases hn : (t1 i).isSome with
      | true => rfl
      | false => simp [rc, hn] at hi
    obtain ⟨G, hG⟩ := Option.isSome_iff_exists.1 this
    exact ⟨G, hG, fun f hf => hpos f (ht1.refs i G hG f hf)⟩
  obtain ⟨e', t2, e3, f3⟩ := tryFuse_ok (rc := rc) (fuel := a + 1) (i := a) (by omega) hE.wf (fun f hf => hpos f (ht1.refs a F hF f hf)) ht1 hrc
  have e3' : tryFuse rc0 (a + 2) F.expr t1 = .ok (e', t2) := by
    have := (tryFuse_congr (rc := rc) (rc' := rc0) (D := fun i => (t1 i).isSome = true) (fun i hi => by simp only [rc, hi, if_true]) (a + 2) F.expr t1 (fun _ => Iff.rfl)).1
    rw [← this]; exact e3
  have hbase : base g a = a := base_nonview hv
  generalize hroot : ({ outLoops := F.outLoops, outShape := F.outShape, outDtype := F.outDtype, expr := e', outBuffer := base g a } : Func) = root
  have hEroot : EntryOK g a root := by
    subst hroot
    exact ⟨ha, hE.loops, hE.shape, hE.dtype, hbase, f3.wf, fun A idx hv => f3.sem A _ _ (hE.sem A idx hv)⟩
  have hrexpr : root.expr = e' := by subst hroot; rfl
  have hsome : ∀ x, rc x ≠ 0 → ((t2.set a root) x).isSome := by
    intro x hx
    by_cases hxa : x = a
    · subst hxa; simp [Tbl.set_same]
    · rw [Tbl.set_ne _ _ hxa]; obtain ⟨Fx, hFx, _⟩ := f3.rcOK x hx; rw [hFx]; rfl
  have htbl : TblOK g (t2.set a root) := by
    refine ⟨fun i G hi => ?_, fun i G hi x hx => ?_⟩
    · by_cases hia : i = a
      · subst hia; rw [Tbl.set_same, Option.some.injEq] at hi; subst hi; exact hEroot
      · rw [Tbl.set_ne _ _ hia] at hi; exact f3.tbl.entry i G hi
    · by_cases hia : i = a
      · subst hia; rw [Tbl.set_same, Option.some.injEq] at hi; subst hi
        exact hsome x (f3.refs x (by rw [← hrexpr]; exact hx))
      · rw [Tbl.set_ne _ _ hia] at hi
        by_cases hxa : x = a
        · subst hxa; simp [Tbl.set_same]
        · rw [Tbl.set_ne _ _ hxa]; exact f3.tbl.refs i G hi x hx
  have hdag : TblDag (t2.set a root) := fun i G hi f hf => ⟨(htbl.entry i G hi).wf.refs_lt f hf, htbl.refs i G hi f hf⟩
  obtain ⟨sn, fs, e4, r4, m4, l4⟩ := topo_ok hdag (a + 2) a [] [] (by omega) (by simp [Tbl.set_same]) ⟨by simp, by simp, by intro p f q he; simp at he⟩ (by simp)
  have hr : ∀ f ∈ fs, Reach g a f ∧ ∃ G, (t2.set a root) f = some G := by
    intro f hf
    obtain ⟨l, hl, hb⟩ := r4.pre
    simp only [List.nil_append] at hl
    have hx := hb f (hl ▸ hf)
    obtain ⟨G, hG⟩ := Option.isSome_iff_exists.1 hx.2.1
    refine ⟨?_, G, hG⟩
    by_cases hfa : f = a
    · subst hfa; exact .refl
    · rw [Tbl.set_ne _ _ hfa] at hG
      exact hreach f ((f3.dom f).1 (by rw [hG]; rfl))
  obtain ⟨D, _, hI, hD⟩ := (tryFuse_inv (g := g) (a + 2) e3' (f1.inv rc0)).ex
  have hP := topo_pres (t := t2.set a root) (P := fun i => i = a ∨ D i) (by
    intro i G hi hG x hx
    by_cases hia : i = a
    · subst hia
      rw [Tbl.set_same, Option.some.injEq] at hG
      subst hG
      exact Or.inr (hD x (by rw [← hrexpr]; exact hx))
    · rw [Tbl.set_ne _ _ hia] at hG
      exact Or.inr ((hI.kept i G (hi.resolve_left hia) hG).2 x hx)) (a + 2) a [] [] sn fs e4 (Or.inl rfl) (by simp)
  have hkept : ∀ f ∈ fs, g.ctx f ≠ .const ∧ (f = a ∨ ∀ G, (t2.set a root) f = some G → hasReduce G.expr = true ∨ rc0 f ≠ 1) := by
    intro f hf
    by_cases hfa : f = a
    · subst hfa; exact ⟨hc, Or.inl rfl⟩
    · have hDf := (hP f hf).resolve_left hfa
      refine ⟨hI.nonconst f hDf, Or.inr fun G hG => ?_⟩
      rw [Tbl.set_ne _ _ hfa] at hG
      exact (hI.kept f G hDf hG).1
  refine ⟨fs, t2.set a root, ?_, r4.inv.nodup, l4 (by simp), r4.inv.ord, ⟨fun f hf => ?_⟩, fun f hf => ⟨(hr f hf).1, (hkept f hf).2⟩⟩
  · unfold convertBy
    simp only [e1, bind, Except.bind, hF, e3', hroot, e4]
    rfl
  · obtain ⟨hrf, G, hG⟩ := hr f hf
    have hE' := htbl.entry f G hG
    refine ⟨hrf.le h ha, (hkept f hf).1, G, hG, hE', fun d hd => ⟨?_, RootWF.refs_lt hE'.wf d hd⟩⟩
    obtain ⟨pre, post, rfl⟩ := List.append_of_mem hf
    exact List.mem_append_left _ (r4.inv.ord pre f post rfl G hG d hd)

theorem convertBy_refs {g : Graph V} (h : WF g) {a : Nat} (ha : a < g.length) (hns : NoScalarReshape g a) {rc : RC}
    {funcs : List Nat} {t : Tbl} (hconv : convertBy rc g a = .ok (funcs, t)) : RefsReach g t := by
  obtain ⟨t1, e1, f1, _, s1, r1⟩ := arrToFunc_ok h (a + 2) a Tbl.empty (by omega) ha hns (Fresh.empty g)
  obtain ⟨F, hF⟩ := Option.isSome_iff_exists.1 s1
  unfold convertBy at hconv
  simp only [e1, bind, Except.bind, hF] at hconv
  cases h3 : tryFuse rc (a + 2) F.expr t1 with
  | error x => simp [h3] at hconv
  | ok p =>
    obtain ⟨e', t2⟩ := p
    simp only [h3] at hconv
    have hr := tryFuse_refs (g := g) (a + 2) h3 f1.refsReach
    split at hconv
    · cases hconv
    · rename_i q hq
      simp only [pure, Except.pure, Except.ok.injEq, Prod.mk.injEq] at hconv
      obtain ⟨rfl, rfl⟩ := hconv
      intro i G hG x hx
      by_cases hia : i = a
      · subst hia
        rw [Tbl.set_same, Option.some.injEq] at hG
        subst hG
        obtain ⟨y, hy, hxy⟩ := hr.2 x hx
        exact (f1.refsReach i F hF y hy).trans hxy
      · rw [Tbl.set_ne _ _ hia] at hG
        exact hr.1 i G hG x hx

/-- Materializing with any fusion decision succeeds and makes the elements available. -/
theorem materializeBy_ok {b : Backend V} (hb : Faithful b) {w : World V} (h : WInv b w) {a : Nat} (ha : a < w.g.length) (hv : (w.g.ctx a).op.isView = false)
    (hc : w.g.ctx a ≠ .const) (hns : NoScalarReshape w.g a) {rc : RC} (hrc : ∀ i, Reach w.g a i → rc i ≠ 0)
    (hnc : NoCollision (w.log ++ launchLogBy rc b.isGpu w.g a)) (hsz : b.isGpu = true → NoEmpty w.g a ∧ FitsGridBy rc w.g a) :
    ∃ w', materializeBy rc b w a = .ok w' ∧ WInv b w' ∧ w'.g = w.g ∧ Avail b w' a := by
  obtain ⟨funcs, t, e, hnd, ⟨pre, hpre⟩, hord, htg, hkept⟩ := convertBy_good h.wf ha hns hv hc hrc
  obtain ⟨scheds, es, hl, hps⟩ := schedAll_ok (isGpu := b.isGpu) htg funcs (fun _ h => h)
  have hlog : launchLogBy rc b.isGpu w.g a = (funcs.zip scheds).filterMap (plan1 w.g t (a + 2)) := by
    unfold launchLogBy
    simp only [e, es]
  have hmap : (funcs.zip scheds).map (·.1) = funcs := by
    apply List.map_fst_zip; omega
  have hrr : RefsReach w.g t := convertBy_refs h.wf ha hns e
  obtain ⟨w', e', s', av⟩ := runFuncs_ok hb htg (funcs.zip scheds) []
    { w with log := w.log ++ (funcs.zip scheds).filterMap (plan1 w.g t (a + 2)) }
    ⟨h.wf, h.nn, h.cpu, h.dev, fun k K hk => by
      obtain ⟨K0, n0, n, h1, h2⟩ := h.cache k K hk
      exact ⟨K0, n0, n, List.mem_append_left _ h1, h2⟩, h.ev⟩ rfl (by rw [← hlog]; exact hnc)
    (fun p hp => ⟨by rw [← hmap]; exact List.mem_map_of_mem hp, hps p hp⟩)
    (fun hgpu p hp F hF i hi => by
      have hpf : p.1 ∈ funcs := by rw [← hmap]; exact List.mem_map_of_mem hp
      have hpr := (hkept p.1 hpf).1
      refine ⟨?_, fun he => by rw [he]; exact (hsz hgpu).2 funcs t e p.1 hpf⟩
      rcases hi with rfl | hi
      · exact (hsz hgpu).1 _ hpr
      · exact (hsz hgpu).1 _ (hpr.trans (hrr p.1 F hF i (by
          exact mem_refs.2 hi))))
    (fun p hp q hq => List.mem_append_right _ (List.mem_filterMap.2 ⟨p, hp, hq⟩))
    (by rw [hmap]; exact hord) (by simp)
  refine ⟨w', ?_, s'.inv, s'.g, ?_⟩
  · unfold materializeBy
    simp only [e, es, bind, Except.bind]
    exact e'
  · have : a ∈ (funcs.zip scheds).map (·.1) := by rw [hmap, hpre]; simp
    obtain ⟨p, hp, hpa⟩ := List.mem_map.1 this
    rw [← hpa]; exact av p hp

end Whale
