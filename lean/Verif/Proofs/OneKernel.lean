import Verif.Spec.OneKernel
import Verif.Proofs.Linear
import Verif.Proofs.CacheLog
/-
C57: one-kernel arrays have plain cache keys.
-/
namespace Whale
open Mat Algo Codegen Hist
variable {V : Type}

/-- No conditional in the expression. -/
def DExpr.noTern : DExpr → Bool
  | .tern .. => false
  | .un _ e => e.noTern
  | .bin _ l r => l.noTern && r.noTern
  | .red _ e _ => e.noTern
  | _ => true

theorem replaceD_noTern {m : Repl} : ∀ {e e' : DExpr}, replaceD m e = .ok e' → e'.noTern = e.noTern
  | .const c, e', h => by cases h; rfl
  | .un op e, e', h => by
    simp only [replaceD] at h
    obtain ⟨e1, h1, h⟩ := except_bind_ok h
    cases h; simp only [DExpr.noTern]; exact replaceD_noTern h1
  | .red op e rs, e', h => by
    simp only [replaceD] at h
    obtain ⟨e1, h1, h⟩ := except_bind_ok h
    cases h; simp only [DExpr.noTern]; exact replaceD_noTern h1
  | .bin op l r, e', h => by
    simp only [replaceD] at h
    obtain ⟨e1, h1, h⟩ := except_bind_ok h
    obtain ⟨e2, h2, h⟩ := except_bind_ok h
    cases h; simp only [DExpr.noTern, replaceD_noTern h1, replaceD_noTern h2]
  | .tern op c l r, e', h => by
    simp only [replaceD] at h
    obtain ⟨_, _, h⟩ := except_bind_ok h
    obtain ⟨_, _, h⟩ := except_bind_ok h
    obtain ⟨_, _, h⟩ := except_bind_ok h
    cases h; rfl
  | .func f idx, e', h => by
    simp only [replaceD] at h
    obtain ⟨_, _, h⟩ := except_bind_ok h
    cases h; rfl
  | .buf f idx, e', h => by
    simp only [replaceD] at h
    obtain ⟨_, _, h⟩ := except_bind_ok h
    cases h; rfl

/-- No conditional in any expression of the table. -/
def TblNoTern (t : Tbl) : Prop := ∀ i F, t i = some F → F.expr.noTern = true

theorem fuseE_noTern {visit : Nat → List IExpr → Tbl → Except Err (DExpr × Tbl)}
    (hv : ∀ f idx t e' t', visit f idx t = .ok (e', t') → TblNoTern t → TblNoTern t' ∧ e'.noTern = true) :
    ∀ {e e' : DExpr} {t t' : Tbl}, fuseE visit e t = .ok (e', t') → TblNoTern t → e.noTern = true → TblNoTern t' ∧ e'.noTern = true
  | .const c, _, _, _, h, ht, _ => by cases h; exact ⟨ht, rfl⟩
  | .buf n idx, _, _, _, h, ht, _ => by cases h; exact ⟨ht, rfl⟩
  | .un op e, _, _, _, h, ht, he => by
    simp only [fuseE] at h
    obtain ⟨⟨e1, t1⟩, h1, h⟩ := except_bind_ok h
    cases h
    have := fuseE_noTern hv h1 ht (by simpa only [DExpr.noTern] using he)
    exact ⟨this.1, by simpa only [DExpr.noTern] using this.2⟩
  | .red op e rs, _, _, _, h, ht, he => by
    simp only [fuseE] at h
    obtain ⟨⟨e1, t1⟩, h1, h⟩ := except_bind_ok h
    cases h
    have := fuseE_noTern hv h1 ht (by simpa only [DExpr.noTern] using he)
    exact ⟨this.1, by simpa only [DExpr.noTern] using this.2⟩
  | .bin op l r, _, _, _, h, ht, he => by
    simp only [fuseE] at h
    simp only [DExpr.noTern, Bool.and_eq_true] at he
    obtain ⟨⟨e1, t1⟩, h1, h⟩ := except_bind_ok h
    obtain ⟨⟨e2, t2⟩, h2, h⟩ := except_bind_ok h
    cases h
    obtain ⟨i1, i2⟩ := fuseE_noTern hv h1 ht he.1
    obtain ⟨j1, j2⟩ := fuseE_noTern hv h2 i1 he.2
    exact ⟨j1, by simp only [DExpr.noTern, i2, j2, Bool.and_self]⟩
  | .tern .., _, _, _, _, _, he => by cases he
  | .func f idx, e', t, t', h, ht, _ => hv f idx t e' t' h ht

theorem tryFuse_noTern {rc : RC} (fuel : Nat) : ∀ {e e' : DExpr} {t t' : Tbl}, tryFuse rc fuel e t = .ok (e', t') → TblNoTern t → e.noTern = true → TblNoTern t' ∧ e'.noTern = true := by
  induction fuel with
  | zero => intro e e' t t' h; cases h
  | succ fuel ih =>
    intro e e' t t' h ht he
    unfold tryFuse at h
    refine fuseE_noTern ?_ h ht he
    intro f idx t e' t' h ht
    cases hF : t f with
    | none => simp [hF] at h
    | some F =>
      simp only [hF] at h
      split at h
      · cases h
      · split at h
        · obtain ⟨e1, h1, h⟩ := except_bind_ok h
          exact ih h ht (by rw [replaceD_noTern h1]; exact ht f F hF)
        · obtain ⟨⟨e1, t1⟩, h1, h⟩ := except_bind_ok h
          cases h
          obtain ⟨i1, i2⟩ := ih h1 ht (ht f F hF)
          refine ⟨?_, rfl⟩
          intro i G hG
          by_cases hif : i = f
          · subst hif
            rw [Tbl.set_same, Option.some.injEq] at hG
            subst hG
            exact i2
          · rw [Tbl.set_ne _ _ hif] at hG
            exact i1 i G hG

theorem mkExpr_noTern {g : Graph V} {a : Nat} {e : DExpr} (h : mkExpr g a = .ok e) (hc : ¬ Conditional g a) : e.noTern = true := by
  unfold mkExpr at h
  cases hcc : g.ctx a <;> simp only [hcc] at h
  case const => cases h; rfl
  case unary => cases h; rfl
  case binary => cases h; rfl
  case contiguous => cases h; rfl
  case sum x axis kd =>
    unfold reduceExpr at h
    obtain ⟨_, _, h⟩ := except_bind_ok h
    cases h; rfl
  case pad x dim b c => exact absurd (.inl ⟨_, _, _, _, hcc⟩) hc
  case dilate x dim st => exact absurd (.inr ⟨_, _, _, hcc⟩) hc
  all_goals
    obtain ⟨_, _, h⟩ := except_bind_ok h
    cases h; rfl

theorem mkExpr_hasReduce {g : Graph V} {a : Nat} {e : DExpr} (h : mkExpr g a = .ok e) (hc : ¬ Summed g a) : hasReduce e = false := by
  unfold mkExpr at h
  cases hcc : g.ctx a <;> simp only [hcc] at h
  case const => cases h; rfl
  case unary => cases h; rfl
  case binary => cases h; rfl
  case contiguous => cases h; rfl
  case sum x axis kd => exact absurd ⟨_, _, _, hcc⟩ hc
  case pad x dim b c =>
    unfold padExpr at h
    obtain ⟨_, _, h⟩ := except_bind_ok h
    obtain ⟨_, _, h⟩ := except_bind_ok h
    cases h; rfl
  case dilate x dim st =>
    unfold dilateExpr at h
    obtain ⟨_, _, h⟩ := except_bind_ok h
    cases h; rfl
  all_goals
    obtain ⟨_, _, h⟩ := except_bind_ok h
    cases h; rfl

/-- Besides the array itself only summed arrays, and arrays used at least twice, get a kernel. -/
theorem convert_uses {g : Graph V} (h : WF g) {a : Nat} (ha : a < g.length) (hns : NoScalarReshape g a) (hv : (g.ctx a).op.isView = false) (hc : g.ctx a ≠ .const)
    {funcs : List Nat} {t : Tbl} (hconv : convert g a = .ok (funcs, t)) :
    (∀ f ∈ funcs, f ≠ a → Summed g f ∨ ∃ arrays : List Nat, arrays.Nodup ∧ (∀ i ∈ arrays, Reach g a i) ∧ 2 ≤ (arrays.flatMap fun i => (g.ctx i).inputs).count f) ∧
    ((∀ i, Reach g a i → ¬ Conditional g i) → TblNoTern t) := by
  have hconv0 := hconv
  obtain ⟨t1, e1, f1, _, s1, r1⟩ := arrToFunc_ok h (a + 2) a Tbl.empty (by omega) ha hns (Fresh.empty g)
  have ht1 := f1.tblOK h
  obtain ⟨F, hF⟩ := Option.isSome_iff_exists.1 s1
  have hreach : ∀ i, (t1 i).isSome → Reach g a i := fun i hi => (r1 i hi).resolve_left (by simp [Tbl.empty])
  unfold convert at hconv
  simp only [e1, bind, Except.bind, hF] at hconv
  cases h2 : countRefs t1 (a + 2) F.expr (fun _ => 0) with
  | error x => simp [h2] at hconv
  | ok rc =>
    simp only [h2] at hconv
    cases h3 : tryFuse rc (a + 2) F.expr t1 with
    | error x => simp [h3] at hconv
    | ok p =>
      obtain ⟨e', t2⟩ := p
      simp only [h3] at hconv
      cases h4 : topo (t2.set a { outLoops := F.outLoops, outShape := F.outShape, outDtype := F.outDtype, expr := e', outBuffer := base g a }) (a + 2) a ([], []) with
      | error x => simp [h4] at hconv
      | ok q =>
        obtain ⟨sn, fs⟩ := q
        simp only [h4, pure, Except.pure, Except.ok.injEq, Prod.mk.injEq] at hconv
        obtain ⟨rfl, rfl⟩ := hconv
        obtain ⟨N, hN⟩ := countRefs_cnt (a + 2) h2
        have hlt : ∀ i G, t1 i = some G → ∀ x ∈ funcRefs G.expr, x < i := fun i G hG x hx => (ht1.entry i G hG).wf.refs_lt x hx
        have hw1 : WorkOK t1 (inlined t1 rc) t1 := fun i G hG => ⟨G, hG, (work_eq hG (hlt i G hG)).symm, rfl⟩
        obtain ⟨hw2, _, _⟩ := tryFuse_work (t1 := t1) (rc := rc) (a + 2) h3 hw1
        have haN : a ∉ N := by
          intro hm
          have hp := hN.pos a hm
          have he := hN.eq a
          have c1 : (funcRefs F.expr).count a = 0 := List.count_eq_zero.2 fun hx => Nat.lt_irrefl _ (hlt a F hF a hx)
          have c2 : (N.flatMap (refsAt t1)).count a = 0 := List.count_eq_zero.2 fun hx => by
            obtain ⟨i, hi, hx⟩ := List.mem_flatMap.1 hx
            obtain ⟨G, hG⟩ := Option.isSome_iff_exists.1 (hN.new i hi).2
            unfold refsAt at hx; rw [hG] at hx
            have := hlt i G hG a hx
            have := (hreach i (hN.new i hi).2).le h ha
            omega
          omega
        have hRs : ∀ i ∈ a :: N, ∃ G, t1 i = some G := by
          intro i hi
          rcases List.mem_cons.1 hi with rfl | hi
          · exact ⟨F, hF⟩
          · exact Option.isSome_iff_exists.1 (hN.new i hi).2
        have hL : ∀ x, ((a :: N).flatMap (refsAt t1)).count x = rc x := by
          intro x
          have := hN.eq x
          rw [List.flatMap_cons, List.count_append, this]
          have : refsAt t1 a = funcRefs F.expr := by unfold refsAt; rw [hF]
          rw [this]; omega
        obtain ⟨t1', F', rc', e1', hF', h2', hk⟩ := convert_kept h ha hns hc hconv0
        rw [e1] at e1'; cases e1'
        rw [hF] at hF'; cases hF'
        rw [h2] at h2'; cases h2'
        obtain ⟨fs', t', ec, hnd, _, hord, hent⟩ := convert_ok h ha hns hv
        rw [hconv0] at ec; cases ec
        have hrcf : ∀ f ∈ fs, f = a ∨ rc f ≠ 0 := by
          obtain ⟨e'', t2', e3', f3⟩ := tryFuse_ok (rc := rc) (fuel := a + 1) (i := a) (by omega) (ht1.entry a F hF).wf
            (fun f hf => by rw [← hL]; exact Nat.pos_iff_ne_zero.1 (List.count_pos_iff.2 (by
              rw [List.flatMap_cons]; exact List.mem_append_left _ (by unfold refsAt; rw [hF]; exact hf)))) ht1
            (fun i hi => by
              have hiN := hN.all i rfl hi
              obtain ⟨G, hG⟩ := hRs i (List.mem_cons_of_mem _ hiN)
              refine ⟨G, hG, fun f hf => ?_⟩
              rw [← hL]; exact Nat.pos_iff_ne_zero.1 (List.count_pos_iff.2 (List.mem_flatMap.2 ⟨i, List.mem_cons_of_mem _ hiN, by unfold refsAt; rw [hG]; exact hf⟩)))
          have e3'' : tryFuse rc (a + 2) F.expr t1 = .ok (e'', t2') := e3'
          rw [h3] at e3''; cases e3''
          refine topo_pres (P := fun i => i = a ∨ rc i ≠ 0) ?_ (a + 2) a [] [] sn fs h4 (Or.inl rfl) (by simp)
          intro i G hi hG x hx
          by_cases hia : i = a
          · subst hia
            rw [Tbl.set_same, Option.some.injEq] at hG
            subst hG
            exact Or.inr (f3.refs x hx)
          · rw [Tbl.set_ne _ _ hia] at hG
            obtain ⟨G', hG', hr⟩ := f3.rcOK i (hi.resolve_left hia)
            rw [hG] at hG'; cases hG'
            exact Or.inr (hr x hx)
        refine ⟨?_, ?_⟩
        · intro f hf hfa
          by_cases hsum : Summed g f
          · exact .inl hsum
          right
          obtain ⟨_, G, hG, _⟩ := hent f hf
          have hor := ((hk f hf).2.resolve_left hfa) G hG
          rw [Tbl.set_ne _ _ hfa] at hG
          obtain ⟨F1, hF1, _, hred⟩ := hw2 f G hG
          have hr1 : hasReduce F1.expr = false := by
            obtain ⟨_, _, e, he, rfl⟩ := f1.entry f F1 hF1
            exact mkExpr_hasReduce he hsum
          have hne : rc f ≠ 1 := hor.resolve_left (by rw [hred, hr1]; simp)
          have hnz := (hrcf f hf).resolve_left hfa
          refine ⟨a :: N, List.nodup_cons.2 ⟨haN, hN.nodup⟩, fun i hi => ?_, ?_⟩
          · obtain ⟨G, hG⟩ := hRs i hi
            exact hreach i (by rw [hG]; rfl)
          · have : ((a :: N).flatMap fun i => (g.ctx i).inputs) = (a :: N).flatMap (refsAt t1) := by
              apply List.flatMap_congr
              intro i hi
              obtain ⟨G, hG⟩ := hRs i hi
              obtain ⟨_, _, e, he, rfl⟩ := f1.entry i G hG
              unfold refsAt; rw [hG]; exact (mkExpr_funcRefs_eq he).symm
            rw [this, hL]; omega
        · intro hcd
          have hn1 : TblNoTern t1 := by
            intro i G hG
            obtain ⟨_, _, e, he, rfl⟩ := f1.entry i G hG
            exact mkExpr_noTern he (hcd i (hreach i (by rw [hG]; rfl)))
          obtain ⟨n1, n2⟩ := tryFuse_noTern (a + 2) h3 hn1 (hn1 a F hF)
          intro i G hG
          by_cases hia : i = a
          · subst hia
            rw [Tbl.set_same, Option.some.injEq] at hG
            subst hG; exact n2
          · rw [Tbl.set_ne _ _ hia] at hG
            exact n1 i G hG

theorem count_flatMap_le_one {f : Nat → List Nat} {x : Nat} : ∀ {l : List Nat}, l.Nodup → (∀ i ∈ l, ∀ j ∈ l, x ∈ f i → x ∈ f j → i = j) → (∀ i ∈ l, (f i).count x ≤ 1) →
    (l.flatMap f).count x ≤ 1
  | [], _, _, _ => by simp
  | i :: l, hn, h1, h2 => by
    rw [List.nodup_cons] at hn
    rw [List.flatMap_cons, List.count_append]
    have ih := count_flatMap_le_one (f := f) (x := x) hn.2 (fun i hi j hj => h1 i (by simp [hi]) j (by simp [hj])) (fun i hi => h2 i (by simp [hi]))
    have hi := h2 i (by simp)
    by_cases hx : x ∈ f i
    · have : (l.flatMap f).count x = 0 := List.count_eq_zero.2 fun hm => by
        obtain ⟨j, hj, hxj⟩ := List.mem_flatMap.1 hm
        have := h1 i (by simp) j (by simp [hj]) hx hxj
        exact hn.1 (this ▸ hj)
      omega
    · rw [List.count_eq_zero.2 hx]; omega

/-- A one-kernel array is computed by one kernel, which reads only data and contains no conditional. -/
theorem convert_one {g : Graph V} (h : WF g) {a : Nat} (ha : a < g.length) (hns : NoScalarReshape g a) (hv : (g.ctx a).op.isView = false) (hc : g.ctx a ≠ .const)
    (ho : OneKernel g a) {funcs : List Nat} {t : Tbl} (hconv : convert g a = .ok (funcs, t)) :
    funcs = [a] ∧ ∃ F, t a = some F ∧ funcRefs F.expr = [] ∧ F.expr.noTern = true := by
  obtain ⟨h1, h2⟩ := convert_uses h ha hns hv hc hconv
  obtain ⟨_, _, _, _, _, _, hk⟩ := convert_kept h ha hns hc hconv
  obtain ⟨fs', t', ec, hnd, ⟨pre, hpre⟩, hord, hent⟩ := convert_ok h ha hns hv
  rw [hconv] at ec; cases ec
  have hall : ∀ f ∈ funcs, f = a := by
    intro f hf
    by_contra hfa
    rcases h1 f hf hfa with hs | ⟨arrays, hn, hr, hcnt⟩
    · exact ho.sum f (hent f hf).1 hfa hs
    · have hcf := (hk f hf).1
      have := count_flatMap_le_one (f := fun i => (g.ctx i).inputs) (x := f) hn
        (fun i hi j hj hx hy => ho.once f hcf i j (hr i hi) (hr j hj) hx hy) (fun i hi => ho.single f hcf i (hr i hi))
      omega
  have hfs : funcs = [a] := by
    subst hpre
    cases pre with
    | nil => rfl
    | cons y ys =>
      have := hall y (by simp)
      subst this
      simp at hnd
  refine ⟨hfs, ?_⟩
  obtain ⟨_, F, hF, hE, hd⟩ := hent a (by rw [hfs]; simp)
  refine ⟨F, hF, ?_, h2 ho.cond a F hF⟩
  rw [List.eq_nil_iff_forall_not_mem]
  intro d hd'
  have := hord [] a [] (by rw [hfs]; rfl) F hF d hd'
  cases this

theorem ekeyE_plain_of {g : Graph V} {visit : Nat → List Nat → Except Err (EKey × List Nat)} :
    ∀ (e : DExpr) (ids : List Nat) (k : EKey) (ids' : List Nat), ekeyE g visit e ids = .ok (k, ids') → funcRefs e = [] → e.noTern = true → k.plain = true
  | .const c, ids, k, ids', h, _, _ => by cases h; rfl
  | .un op e, ids, k, ids', h, hf, hn => by
    simp only [ekeyE] at h
    obtain ⟨⟨k1, i1⟩, h1, h2⟩ := except_bind_ok h
    cases h2
    simp only [EKey.plain]
    exact ekeyE_plain_of e ids k1 _ h1 hf hn
  | .bin op l r, ids, k, ids', h, hf, hn => by
    simp only [ekeyE] at h
    obtain ⟨⟨k1, i1⟩, h1, h⟩ := except_bind_ok h
    obtain ⟨⟨k2, i2⟩, h2, h⟩ := except_bind_ok h
    cases h
    simp only [DExpr.noTern, Bool.and_eq_true] at hn
    simp only [funcRefs, List.append_eq_nil_iff] at hf
    simp only [EKey.plain, ekeyE_plain_of l _ _ _ h1 hf.1 hn.1, ekeyE_plain_of r _ _ _ h2 hf.2 hn.2, Bool.and_self]
  | .tern .., ids, k, ids', h, _, hn => by cases hn
  | .red op e rs, ids, k, ids', h, hf, hn => by
    simp only [ekeyE] at h
    obtain ⟨⟨k1, i1⟩, h1, h2⟩ := except_bind_ok h
    cases h2
    simp only [EKey.plain]
    exact ekeyE_plain_of e ids k1 _ h1 hf hn
  | .func f idx, ids, k, ids', h, hf, _ => by cases hf
  | .buf n idx, ids, k, ids', h, _, _ => by cases h; rfl

theorem cacheKey_plain_of {g : Graph V} {t : Tbl} {fuel : Nat} {F : Func} {sch : Schedule} {k : Key} (h : cacheKey g t fuel F sch = .ok k)
    (hf : funcRefs F.expr = []) (hn : F.expr.noTern = true) : k.expr.plain = true := by
  simp only [cacheKey] at h
  obtain ⟨⟨e1, i1⟩, x1, h⟩ := except_bind_ok h
  cases h
  cases fuel with
  | zero => cases x1
  | succ fuel =>
    unfold ekey at x1
    exact ekeyE_plain_of _ _ _ _ x1 hf hn

theorem launchLogF_one (isGpu : Bool) {g : Graph V} (h : WF g) : ∀ (fuel a : Nat), a < g.length → NoScalarReshape g (base g a) → OneKernel g (base g a) →
    ∀ p ∈ launchLogF isGpu g fuel a, p.1.expr.plain = true
  | 0, a, _, _, _, p, hp => by simp [launchLogF] at hp
  | fuel + 1, a, ha, hns, ho, p, hp => by
    unfold launchLogF at hp
    split at hp
    · simp at hp
    rename_i hcst
    split at hp
    · rename_i hv
      split at hp
      · rename_i x _ hx
        rw [base_view h ha hv hx] at hns ho
        have := h.inputs_lt ha x (by rw [hx]; simp)
        exact launchLogF_one isGpu h fuel x (by omega) hns ho p hp
      · simp at hp
    · rename_i hv
      have hv' : (g.ctx a).op.isView = false := by simpa using hv
      rw [base_nonview hv'] at hns ho
      have hc : g.ctx a ≠ .const := fun e => hcst (by rw [e]; rfl)
      split at hp
      · simp at hp
      · rename_i funcs t hcv
        obtain ⟨hfs, F, hF, hr, hn⟩ := convert_one h ha hns hv' hc ho hcv
        split at hp
        · simp at hp
        · rename_i ss hs
          obtain ⟨q, hq, he⟩ := List.mem_filterMap.1 hp
          have hq1 : q.1 = a := by
            have := (List.of_mem_zip (a := q.1) (b := q.2) hq).1
            rw [hfs] at this; simpa using this
          unfold plan1 at he
          rw [hq1] at he
          simp only [hF] at he
          split at he
          · rename_i key hk
            cases he
            exact cacheKey_plain_of hk hr hn
          · cases he

/-- Launches with plain keys do not collide. -/
theorem noCollision_plain {isGpu : Bool} {log : List (Key × Except Err (Kernel × Nat))} (hpl : ∀ p ∈ log, Planned V isGpu p) (hp : ∀ p ∈ log, p.1.expr.plain = true) : NoCollision log := by
  intro p h1 q h2 e
  obtain ⟨g1, t1, n1, F1, s1, a1, b1, c1⟩ := hpl p h1
  obtain ⟨g2, t2, n2, F2, s2, a2, b2, c2⟩ := hpl q h2
  rw [← e] at a2
  have k1 := hp p h1
  rw [c1, c2]
  exact (freshCode_of_key a1 a2 b1 b2 (EKey.plain_handled k1) (by simp only [funcSig, cacheKey_plain a1 k1, cacheKey_plain a2 k1, List.map_nil])).2

theorem fitsGrid_one {g : Graph V} (h : WF g) {a : Nat} (ha : a < g.length) (hv : (g.ctx a).op.isView = false) (hns : NoScalarReshape g a) (ho : OneKernel g a)
    (hg : GridOK (launchGrid (g.shape a))) : FitsGrid g a := by
  intro funcs t hc f hf hfc
  by_cases hca : g.ctx a = .const
  · obtain ⟨fs', t', ec, _, _, _, hent⟩ := convert_ok h ha hns hv
    rw [hc] at ec; cases ec
    rcases (hent f hf).1.cases_input with rfl | ⟨x, hx, _⟩
    · exact hg
    · rw [hca] at hx; cases hx
  · obtain ⟨hfs, _⟩ := convert_one h ha hns hv hca ho hc
    rw [hfs, List.mem_singleton] at hf
    subst hf; exact hg

/-- Worlds of simple sessions are reachable, and everything launched so far has a plain key. -/
theorem ReachableSimple.facts {b : Backend V} (hb : Faithful b) {w : World V} (h : ReachableSimple b w) :
    Reachable b w ∧ (∀ p ∈ w.log, p.1.expr.plain = true) ∧ ∀ c, (∀ i ∈ c.arrays, i < w.g.length) → ArgsSimple b w c → ArgsOK b w c := by
  have key : ∀ w : World V, Reachable b w → (∀ p ∈ w.log, p.1.expr.plain = true) → ∀ c, (∀ i ∈ c.arrays, i < w.g.length) → ArgsSimple b w c → ArgsOK b w c := by
    intro w hr hp c hin hs
    cases c <;> try exact hs
    case materialize a =>
      obtain ⟨hns, ho, hg⟩ := hs
      have hw := (hr.inv hb).winv.wf
      have ha := hin a (by simp [Call.arrays])
      have hlt := Nat.lt_of_le_of_lt (base_le hw ha) ha
      refine ⟨hns, noCollision_plain (isGpu := b.isGpu) (V := V) ?_ ?_, fun hgpu => ⟨(hg hgpu).1, fitsGrid_one hw hlt (base_base hw ha) hns ho (hg hgpu).2⟩⟩
      · intro p h
        rcases List.mem_append.1 h with h | h
        · exact hr.planned hb p h
        · exact launchLog_planned _ _ _ p h
      · intro p h
        rcases List.mem_append.1 h with h | h
        · exact hp p h
        · exact launchLogF_one b.isGpu hw _ a ha hns ho p h
  induction h with
  | init => exact ⟨.init, by intro p hp; simp [Mat.init] at hp, key _ .init (by intro p hp; simp [Mat.init] at hp)⟩
  | @call w w' c h hl hn ih =>
    obtain ⟨hr, hp, _⟩ := ih
    have hn0 := hn
    have main : Legal b w c ∧ ∀ p ∈ w'.log, p.1.expr.plain = true := by
      unfold next at hn
      cases hs : step b w c with
      | error e =>
        refine ⟨.inl ⟨e, hs⟩, ?_⟩
        rw [hs] at hn
        simp only at hn
        split at hn
        · cases hn; exact hp
        · cases hn
      | ok q =>
        obtain ⟨o, w1⟩ := q
        rw [hs] at hn
        cases hn
        rcases hl with ⟨e, he⟩ | ha
        · rw [hs] at he; cases he
        · have hin : ∀ i ∈ c.arrays, i < w.g.length := by
            unfold step at hs
            split at hs
            · rename_i hin; exact hin
            · cases hs
          have haok := key w hr hp c hin ha
          refine ⟨.inr haok, ?_⟩
          rcases step_log hb (hr.inv hb) haok hs with e | e | ⟨a, rfl, e⟩
          · rw [e]; exact hp
          · rw [e]; intro p hp; simp at hp
          · rw [e]
            intro p hq
            rcases List.mem_append.1 hq with hq | hq
            · exact hp p hq
            · exact launchLogF_one b.isGpu (hr.inv hb).winv.wf _ a (hin a (by simp [Call.arrays])) ha.1 ha.2.1 p hq
    have hr' : Reachable b w' := hr.call main.1 hn0
    exact ⟨hr', main.2, key w' hr' main.2⟩
  | @stopped w w' y h hy ha hs ih =>
    obtain ⟨hr, hp, _⟩ := ih
    have hr' : Reachable b w' := hr.stopped hy ha hs
    have hi := hr.inv hb
    have hp' : ∀ p ∈ w'.log, p.1.expr.plain = true := by
      rw [(hs.bstep b.A hi.winv.wf hi.nn hi.gs hy ha).1.rest]; exact hp
    exact ⟨hr', hp', key w' hr' hp'⟩

end Whale
