import Verif.Spec.Limit
import Verif.Proofs.KeySize
import Verif.Proofs.Backward
/-
C63: the recursive functions do not depend on the recursion limit if it is larger than the longest chain of operations.
-/
namespace Whale
open Mat Algo Hist
variable {V : Type}

theorem le_foldr_max {l : List Nat} {x : Nat} (h : x ∈ l) : x ≤ l.foldr max 0 := by
  induction l with
  | nil => cases h
  | cons y l ih =>
    rcases List.mem_cons.1 h with rfl | h
    · simp only [List.foldr_cons]; omega
    · have := ih h; simp only [List.foldr_cons]; omega

theorem foldr_max_le {l : List Nat} {k : Nat} (h : ∀ x ∈ l, x ≤ k) : l.foldr max 0 ≤ k := by
  induction l with
  | nil => exact Nat.zero_le _
  | cons y l ih =>
    have := h y (by simp)
    have := ih (fun x hx => h x (List.mem_cons_of_mem _ hx))
    simp only [List.foldr_cons]; omega

theorem chainLen_input {g : Graph V} (h : WF g) {i : Nat} (hi : i < g.length) {x : Nat} (hx : x ∈ (g.ctx i).inputs) : chainLen g x < chainLen g i := by
  conv => rhs; rw [chainLen]
  rw [if_neg (List.ne_nil_of_mem hx)]
  have hm : chainLen g x ∈ (g.ctx i).inputs.map (fun x => if _h : x < i then chainLen g x else 0) :=
    List.mem_map.2 ⟨x, hx, by rw [dif_pos (h.inputs_lt hi x hx)]⟩
  have := le_foldr_max hm
  omega

theorem chainLen_le {g : Graph V} (h : WF g) : ∀ i, i < g.length → chainLen g i ≤ i := by
  intro i
  induction i using Nat.strongRecOn with
  | ind i ih =>
    intro hi
    rw [chainLen]
    split
    · exact Nat.zero_le _
    · rename_i hne
      obtain ⟨x0, hx0⟩ := List.exists_mem_of_ne_nil _ hne
      have h0 := h.inputs_lt hi x0 hx0
      have : (((g.ctx i).inputs.map fun x => if _h : x < i then chainLen g x else 0).foldr max 0) ≤ i - 1 := by
        apply foldr_max_le
        intro y hy
        obtain ⟨x, _, rfl⟩ := List.mem_map.1 hy
        split
        · rename_i hlt
          have := ih x hlt (by omega)
          omega
        · exact Nat.zero_le _
      omega

theorem foldlM_congr_mem {α β ε : Type} {f f' : β → α → Except ε β} {l : List α} (h : ∀ s, ∀ x ∈ l, f s x = f' s x) (s : β) : l.foldlM f s = l.foldlM f' s := by
  induction l generalizing s with
  | nil => rfl
  | cons x l ih =>
    simp only [List.foldlM_cons, h s x (by simp)]
    congr 1
    funext s'
    exact ih (fun s y hy => h s y (List.mem_cons_of_mem _ hy)) s'

theorem arrToFunc_fuel {g : Graph V} (h : WF g) : ∀ {fuel fuel' a : Nat} (_ : a < g.length) (_ : chainLen g a < fuel) (_ : chainLen g a < fuel') (m : Tbl),
    arrToFunc g fuel a m = arrToFunc g fuel' a m := by
  intro fuel
  induction fuel with
  | zero => intro _ _ _ h1; omega
  | succ fuel ih =>
    intro fuel' a ha h1 h2 m
    cases fuel' with
    | zero => omega
    | succ fuel' =>
      simp only [arrToFunc]
      split
      · rfl
      · rw [foldlM_congr_mem (f' := fun m x => arrToFunc g fuel' x m)]
        intro s x hx
        have := chainLen_input h ha hx
        have := h.inputs_lt ha x hx
        exact ih (by omega) (by omega) (by omega) s

theorem dfs_fuel {g : Graph V} (h : WF g) : ∀ {fuel fuel' a : Nat} (_ : a < g.length) (_ : chainLen g a < fuel) (_ : chainLen g a < fuel') (m : List Nat × List Nat),
    Bwd.dfs g fuel a m = Bwd.dfs g fuel' a m := by
  intro fuel
  induction fuel with
  | zero => intro _ _ _ h1; omega
  | succ fuel ih =>
    intro fuel' a ha h1 h2 m
    cases fuel' with
    | zero => omega
    | succ fuel' =>
      obtain ⟨seen, funcs⟩ := m
      simp only [Bwd.dfs]
      split
      · rfl
      · rw [foldlM_congr_mem (f' := fun m x => Bwd.dfs g fuel' x m)]
        intro s x hx
        have := chainLen_input h ha hx
        have := h.inputs_lt ha x hx
        exact ih (by omega) (by omega) (by omega) s

/-- References go to functions of smaller rank. -/
def Ranked (d : Nat → Nat) (t : Tbl) : Prop := ∀ i F, t i = some F → ∀ x ∈ funcRefs F.expr, d x < d i

theorem countE_congr {v v' : Nat → RC → Except Err RC} : ∀ {e : DExpr}, (∀ f ∈ funcRefs e, ∀ rc, v f rc = v' f rc) → ∀ rc, countE v e rc = countE v' e rc
  | .const _, _, _ => rfl
  | .buf .., _, _ => rfl
  | .func f idx, h, rc => by simp only [countE, h f (by simp [funcRefs])]
  | .un _ e, h, rc => countE_congr (e := e) h rc
  | .red _ e _, h, rc => countE_congr (e := e) h rc
  | .bin _ l r, h, rc => by
    simp only [countE, countE_congr (e := l) (fun f hf => h f (List.mem_append_left _ hf))]
    congr 1; funext rc
    exact countE_congr (e := r) (fun f hf => h f (List.mem_append_right _ hf)) rc
  | .tern _ _ l r, h, rc => by
    simp only [countE, countE_congr (e := l) (fun f hf => h f (List.mem_append_left _ hf))]
    congr 1; funext rc
    exact countE_congr (e := r) (fun f hf => h f (List.mem_append_right _ hf)) rc

theorem countRefs_fuel {d : Nat → Nat} {t : Tbl} (h : Ranked d t) : ∀ {fuel fuel' k : Nat} {e : DExpr} (_ : ∀ x ∈ funcRefs e, d x < k) (_ : k < fuel) (_ : k < fuel') (rc : RC),
    countRefs t fuel e rc = countRefs t fuel' e rc := by
  intro fuel
  induction fuel with
  | zero => intro _ _ _ _ h1; omega
  | succ fuel ih =>
    intro fuel' k e he h1 h2 rc
    cases fuel' with
    | zero => omega
    | succ fuel' =>
      simp only [countRefs]
      refine countE_congr (fun f hf rc => ?_) rc
      cases hF : t f with
      | none => rfl
      | some F =>
        have := he f hf
        exact ih (h f F hF) (by omega) (by omega) rc

theorem ekeyE_congr {g : Graph V} {v v' : Nat → List Nat → Except Err (EKey × List Nat)} :
    ∀ {e : DExpr}, (∀ f ∈ funcRefs e, ∀ ids, v f ids = v' f ids) → ∀ ids, ekeyE g v e ids = ekeyE g v' e ids
  | .const _, _, _ => rfl
  | .buf .., _, _ => rfl
  | .tern .., _, _ => rfl
  | .func f idx, h, ids => by simp only [ekeyE, h f (by simp [funcRefs])]
  | .un _ e, h, ids => by simp only [ekeyE, ekeyE_congr (e := e) h]
  | .red _ e _, h, ids => by simp only [ekeyE, ekeyE_congr (e := e) h]
  | .bin _ l r, h, ids => by
    simp only [ekeyE, ekeyE_congr (e := l) (fun f hf => h f (List.mem_append_left _ hf)), ekeyE_congr (e := r) (fun f hf => h f (List.mem_append_right _ hf))]

theorem ekey_fuel {g : Graph V} {d : Nat → Nat} {t : Tbl} (h : Ranked d t) : ∀ {fuel fuel' k : Nat} {e : DExpr} (_ : ∀ x ∈ funcRefs e, d x < k) (_ : k < fuel) (_ : k < fuel') (ids : List Nat),
    ekey g t fuel e ids = ekey g t fuel' e ids := by
  intro fuel
  induction fuel with
  | zero => intro _ _ _ _ h1; omega
  | succ fuel ih =>
    intro fuel' k e he h1 h2 rc
    cases fuel' with
    | zero => omega
    | succ fuel' =>
      simp only [ekey]
      refine ekeyE_congr (fun f hf rc => ?_) rc
      cases hF : t f with
      | none => rfl
      | some F =>
        have := he f hf
        exact ih (h f F hF) (by omega) (by omega) rc

theorem topo_fuel {d : Nat → Nat} {t : Tbl} (h : Ranked d t) : ∀ {fuel fuel' f : Nat} (_ : d f < fuel) (_ : d f < fuel') (st : List Nat × List Nat),
    topo t fuel f st = topo t fuel' f st := by
  intro fuel
  induction fuel with
  | zero => intro _ _ h1; omega
  | succ fuel ih =>
    intro fuel' f h1 h2 st
    cases fuel' with
    | zero => omega
    | succ fuel' =>
      obtain ⟨seen, funcs⟩ := st
      simp only [topo]
      split
      · rfl
      · cases hF : t f with
        | none => rfl
        | some F =>
          simp only
          rw [foldlM_congr_mem (f' := fun st x => topo t fuel' x st)]
          intro s x hx
          have := h f F hF x (mem_dedup.1 hx)
          exact ih (by omega) (by omega) s

theorem fuseE_fuel {d : Nat → Nat} {k : Nat} {v v' : Nat → List IExpr → Tbl → Except Err (DExpr × Tbl)}
    (hv : ∀ f idx t, d f < k → Ranked d t → v f idx t = v' f idx t ∧ ∀ e' t', v f idx t = .ok (e', t') → Ranked d t' ∧ ∀ x ∈ funcRefs e', d x < k) :
    ∀ {e : DExpr} {t : Tbl}, (∀ x ∈ funcRefs e, d x < k) → Ranked d t → fuseE v e t = fuseE v' e t ∧ ∀ e' t', fuseE v e t = .ok (e', t') → Ranked d t' ∧ ∀ x ∈ funcRefs e', d x < k
  | .const c, t, he, ht => ⟨rfl, fun _ _ h => by cases h; exact ⟨ht, by simp [funcRefs]⟩⟩
  | .buf n idx, t, he, ht => ⟨rfl, fun _ _ h => by cases h; exact ⟨ht, by simp [funcRefs]⟩⟩
  | .func f idx, t, he, ht => hv f idx t (he f (by simp [funcRefs])) ht
  | .un op e, t, he, ht => by
    obtain ⟨i1, i2⟩ := fuseE_fuel hv (e := e) he ht
    refine ⟨by simp only [fuseE, i1], fun e' t' h => ?_⟩
    simp only [fuseE] at h
    obtain ⟨⟨e1, t1⟩, h1, h⟩ := except_bind_ok h
    cases h; exact i2 e1 _ h1
  | .red op e rs, t, he, ht => by
    obtain ⟨i1, i2⟩ := fuseE_fuel hv (e := e) he ht
    refine ⟨by simp only [fuseE, i1], fun e' t' h => ?_⟩
    simp only [fuseE] at h
    obtain ⟨⟨e1, t1⟩, h1, h⟩ := except_bind_ok h
    cases h; exact i2 e1 _ h1
  | .bin op l r, t, he, ht => by
    obtain ⟨i1, i2⟩ := fuseE_fuel hv (e := l) (fun x hx => he x (List.mem_append_left _ hx)) ht
    have hr : ∀ x ∈ funcRefs r, d x < k := fun x hx => he x (List.mem_append_right _ hx)
    constructor
    · simp only [fuseE]
      cases h1 : fuseE v l t with
      | error => rw [i1] at h1; rw [h1]; rfl
      | ok p =>
        obtain ⟨e1, t1⟩ := p
        have ht1 := (i2 e1 t1 h1).1
        rw [i1] at h1; rw [h1]
        simp only [bind, Except.bind]
        rw [(fuseE_fuel hv (e := r) hr ht1).1]
    · intro e' t' h
      simp only [fuseE] at h
      obtain ⟨⟨e1, t1⟩, h1, h⟩ := except_bind_ok h
      obtain ⟨⟨e2, t2⟩, h2, h⟩ := except_bind_ok h
      cases h
      obtain ⟨j1, j2⟩ := i2 e1 t1 h1
      obtain ⟨k1, k2⟩ := (fuseE_fuel hv (e := r) hr j1).2 e2 _ h2
      refine ⟨k1, fun x hx => ?_⟩
      rcases List.mem_append.1 hx with hx | hx
      · exact j2 x hx
      · exact k2 x hx
  | .tern op c l r, t, he, ht => by
    obtain ⟨i1, i2⟩ := fuseE_fuel hv (e := l) (fun x hx => he x (List.mem_append_left _ hx)) ht
    have hr : ∀ x ∈ funcRefs r, d x < k := fun x hx => he x (List.mem_append_right _ hx)
    constructor
    · simp only [fuseE]
      cases h1 : fuseE v l t with
      | error => rw [i1] at h1; rw [h1]; rfl
      | ok p =>
        obtain ⟨e1, t1⟩ := p
        have ht1 := (i2 e1 t1 h1).1
        rw [i1] at h1; rw [h1]
        simp only [bind, Except.bind]
        rw [(fuseE_fuel hv (e := r) hr ht1).1]
    · intro e' t' h
      simp only [fuseE] at h
      obtain ⟨⟨e1, t1⟩, h1, h⟩ := except_bind_ok h
      obtain ⟨⟨e2, t2⟩, h2, h⟩ := except_bind_ok h
      cases h
      obtain ⟨j1, j2⟩ := i2 e1 t1 h1
      obtain ⟨k1, k2⟩ := (fuseE_fuel hv (e := r) hr j1).2 e2 _ h2
      refine ⟨k1, fun x hx => ?_⟩
      rcases List.mem_append.1 hx with hx | hx
      · exact j2 x hx
      · exact k2 x hx

theorem tryFuse_fuel {d : Nat → Nat} {rc : RC} : ∀ {fuel fuel' k : Nat} {e : DExpr} {t : Tbl} (_ : ∀ x ∈ funcRefs e, d x < k) (_ : Ranked d t) (_ : k < fuel) (_ : k < fuel'),
    tryFuse rc fuel e t = tryFuse rc fuel' e t ∧ ∀ e' t', tryFuse rc fuel e t = .ok (e', t') → Ranked d t' ∧ ∀ x ∈ funcRefs e', d x < k := by
  intro fuel
  induction fuel with
  | zero => intro _ _ _ _ _ _ h1; omega
  | succ fuel ih =>
    intro fuel' k e t he ht h1 h2
    cases fuel' with
    | zero => omega
    | succ fuel' =>
      simp only [tryFuse]
      refine fuseE_fuel ?_ he ht
      intro f idx t hf ht
      cases hF : t f with
      | none => exact ⟨rfl, fun _ _ h => by cases h⟩
      | some F =>
        simp only
        split
        · exact ⟨rfl, fun _ _ h => by cases h⟩
        · split
          · constructor
            · cases hr : replaceD (F.outLoops.zip idx) F.expr with
              | error => rfl
              | ok fused =>
                simp only [bind, Except.bind]
                exact (ih (k := d f) (by rw [(replaceD_refs hr).1]; exact ht f F hF) ht (by omega) (by omega)).1
            · intro e' t' h
              obtain ⟨fused, hr, h⟩ := except_bind_ok h
              obtain ⟨i1, i2⟩ := (ih (fuel' := fuel) (k := d f) (by rw [(replaceD_refs hr).1]; exact ht f F hF) ht (by omega) (by omega)).2 e' t' h
              exact ⟨i1, fun x hx => by have := i2 x hx; omega⟩
          · have hi := ih (fuel' := fuel') (k := d f) (ht f F hF) ht (by omega) (by omega)
            refine ⟨by rw [hi.1], ?_⟩
            intro e' t' h
            obtain ⟨⟨e1, t1⟩, h1, h⟩ := except_bind_ok h
            cases h
            obtain ⟨i1, i2⟩ := hi.2 e1 t1 h1
            refine ⟨fun i G hG x hx => ?_, by simpa [funcRefs] using hf⟩
            by_cases hif : i = f
            · subst hif
              rw [Tbl.set_same, Option.some.injEq] at hG
              subst hG; exact i2 x hx
            · rw [Tbl.set_ne _ _ hif] at hG
              exact i1 i G hG x hx

/-- What `arr_to_func` puts into the table. -/
def FromGraph (g : Graph V) (t : Tbl) : Prop := ∀ i F, t i = some F → i < g.length ∧ ∃ e, mkExpr g i = .ok e ∧ F = mkFunc g i e

theorem foldlM_inv {α β ε : Type} {P : β → Prop} {f : β → α → Except ε β} {l : List α} (h : ∀ s x s', x ∈ l → P s → f s x = .ok s' → P s') :
    ∀ {s s' : β}, P s → l.foldlM f s = .ok s' → P s' := by
  induction l with
  | nil => intro s s' hs e; cases e; exact hs
  | cons x l ih =>
    intro s s' hs e
    rw [List.foldlM_cons] at e
    obtain ⟨s1, h1, e⟩ := except_bind_ok e
    exact ih (fun s y s' hy => h s y s' (List.mem_cons_of_mem _ hy)) (h s x s1 (by simp) hs h1) e

theorem arrToFunc_made {g : Graph V} (h : WF g) : ∀ {fuel a : Nat} {m m' : Tbl}, a < g.length → FromGraph g m → arrToFunc g fuel a m = .ok m' → FromGraph g m' := by
  intro fuel
  induction fuel with
  | zero => intro _ _ _ _ _ e; cases e
  | succ fuel ih =>
    intro a m m' ha hm e
    simp only [arrToFunc] at e
    split at e
    · cases e; exact hm
    · obtain ⟨m1, h1, e⟩ := except_bind_ok e
      obtain ⟨x, h2, e⟩ := except_bind_ok e
      cases e
      have := foldlM_inv (P := FromGraph g) (fun s y s' hy hs he => ih (Nat.lt_trans (h.inputs_lt ha y hy) ha) hs he) hm h1
      intro i F hF
      by_cases hi : i = a
      · subst hi; rw [Tbl.set_same, Option.some.injEq] at hF; subst hF; exact ⟨ha, x, h2, rfl⟩
      · rw [Tbl.set_ne _ _ hi] at hF; exact this i F hF

theorem FromGraph.ranked {g : Graph V} (h : WF g) {t : Tbl} (ht : FromGraph g t) : Ranked (chainLen g) t := by
  intro i F hF x hx
  obtain ⟨hi, e, he, rfl⟩ := ht i F hF
  have hx : x ∈ funcRefs e := hx
  rw [mkExpr_funcRefs_eq he] at hx
  exact chainLen_input h hi hx

/-- `convert` does not depend on the limit, and its functions have chains no longer than the array's. -/
theorem convertLim_eq {g : Graph V} (h : WF g) {a L L' : Nat} (ha : a < g.length) (hL : chainLen g a < L) (hL' : chainLen g a < L') :
    convertLim g L a = convertLim g L' a ∧ ∀ funcs t, convertLim g L a = .ok (funcs, t) → Ranked (chainLen g) t ∧ ∀ f ∈ funcs, chainLen g f ≤ chainLen g a := by
  unfold convertLim
  have e1 := arrToFunc_fuel h ha hL hL' Tbl.empty
  rw [← e1]
  cases h1 : arrToFunc g L a Tbl.empty with
  | error x => exact ⟨rfl, fun _ _ h => by cases h⟩
  | ok t1 =>
    have hR := (arrToFunc_made h ha (fun _ _ h => by cases h) h1).ranked h
    simp only [bind, Except.bind]
    cases hF : t1 a with
    | none => exact ⟨rfl, fun _ _ h => by cases h⟩
    | some F =>
      simp only
      rw [← countRefs_fuel hR (hR a F hF) hL hL' (fun _ => 0)]
      cases h2 : countRefs t1 L F.expr (fun _ => 0) with
      | error x => exact ⟨rfl, fun _ _ h => by cases h⟩
      | ok rc =>
        simp only
        obtain ⟨f1, f2⟩ := tryFuse_fuel (rc := rc) (hR a F hF) hR hL hL'
        rw [← f1]
        cases h3 : tryFuse rc L F.expr t1 with
        | error x => exact ⟨rfl, fun _ _ h => by cases h⟩
        | ok p =>
          obtain ⟨e', t2⟩ := p
          obtain ⟨g1, g2⟩ := f2 e' t2 h3
          simp only
          generalize hroot : ({ outLoops := F.outLoops, outShape := F.outShape, outDtype := F.outDtype, expr := e', outBuffer := base g a } : Func) = root
          have hR2 : Ranked (chainLen g) (t2.set a root) := by
            intro i G hG x hx
            by_cases hia : i = a
            · subst hia; rw [Tbl.set_same, Option.some.injEq] at hG; subst hG; subst hroot; exact g2 x hx
            · rw [Tbl.set_ne _ _ hia] at hG; exact g1 i G hG x hx
          rw [← topo_fuel hR2 hL hL' ([], [])]
          cases h4 : topo (t2.set a root) L a ([], []) with
          | error x => exact ⟨rfl, fun _ _ h => by cases h⟩
          | ok q =>
            obtain ⟨sn, fs⟩ := q
            refine ⟨rfl, fun funcs t h => ?_⟩
            cases h
            refine ⟨hR2, ?_⟩
            refine topo_pres (P := fun i => chainLen g i ≤ chainLen g a) ?_ L a [] [] sn fs h4 (Nat.le_refl _) (by simp)
            intro i G hi hG x hx
            have := hR2 i G hG x hx
            omega

theorem convert_lim (g : Graph V) (a : Nat) : convert g a = convertLim g (a + 2) a := rfl

theorem cacheKey_fuel {g : Graph V} {d : Nat → Nat} {t : Tbl} (h : Ranked d t) {f : Nat} {F : Func} (hF : t f = some F) {L L' : Nat} (h1 : d f < L) (h2 : d f < L') (sch : Schedule) :
    cacheKey g t L F sch = cacheKey g t L' F sch := by
  unfold cacheKey; rw [ekey_fuel h (h f F hF) h1 h2 []]

theorem runFunc_fuel {b : Backend V} {d : Nat → Nat} {t : Tbl} (h : Ranked d t) {p : Nat × Schedule} {L L' : Nat} (h1 : d p.1 < L) (h2 : d p.1 < L') (w : World V) :
    runFunc b t L w p = runFunc b t L' w p := by
  unfold runFunc
  cases hF : t p.1 with
  | none => rfl
  | some F => simp only [cacheKey_fuel h hF h1 h2]

theorem plan1_fuel {g : Graph V} {d : Nat → Nat} {t : Tbl} (h : Ranked d t) {p : Nat × Schedule} {L L' : Nat} (h1 : d p.1 < L) (h2 : d p.1 < L') :
    plan1 g t L p = plan1 g t L' p := by
  unfold plan1
  cases hF : t p.1 with
  | none => rfl
  | some F => simp only [cacheKey_fuel h hF h1 h2]

theorem filterMap_congr_mem {α β : Type} {f f' : α → Option β} {l : List α} (h : ∀ x ∈ l, f x = f' x) : l.filterMap f = l.filterMap f' := by
  induction l with
  | nil => rfl
  | cons x l ih => simp only [List.filterMap_cons, h x (by simp), ih (fun y hy => h y (List.mem_cons_of_mem _ hy))]

theorem materializeLimF_eq {b : Backend V} {w : World V} (h : WF w.g) {L : Nat} : ∀ {fuel fuel' a : Nat}, a < w.g.length → chainLen w.g a < L → chainLen w.g a < fuel → a < fuel' →
    materializeLimF b L fuel w a = materializeF b fuel' w a := by
  intro fuel
  induction fuel with
  | zero => intro _ _ _ _ h1; omega
  | succ fuel ih =>
    intro fuel' a ha hL h1 h2
    cases fuel' with
    | zero => omega
    | succ fuel' =>
      simp only [materializeLimF, materializeF]
      split
      · rfl
      · split
        · cases hin : (w.g.ctx a).inputs with
          | nil => rfl
          | cons x r =>
            have hx : x ∈ (w.g.ctx a).inputs := by rw [hin]; simp
            have hlt := h.inputs_lt ha x hx
            have := chainLen_input h ha hx
            exact ih (by omega) (by omega) (by omega) (by omega)
        · have hle := chainLen_le h a ha
          obtain ⟨c1, c2⟩ := convertLim_eq h ha (L := L) (L' := a + 2) hL (by omega)
          rw [convert_lim, ← c1]
          cases hc : convertLim w.g L a with
          | error x => rfl
          | ok p =>
            obtain ⟨funcs, t⟩ := p
            obtain ⟨r1, r2⟩ := c2 funcs t hc
            simp only [bind, Except.bind]
            cases hs : schedAll b.isGpu t funcs with
            | error x => rfl
            | ok scheds =>
              simp only
              have hmem : ∀ p ∈ funcs.zip scheds, chainLen w.g p.1 < L ∧ chainLen w.g p.1 < a + 2 := by
                intro p hp
                have := r2 p.1 (List.of_mem_zip (a := p.1) (b := p.2) hp).1
                omega
              rw [filterMap_congr_mem (f' := plan1 w.g t (a + 2)) (fun p hp => plan1_fuel r1 (hmem p hp).1 (hmem p hp).2)]
              exact foldlM_congr_mem (fun s p hp => runFunc_fuel r1 (hmem p hp).1 (hmem p hp).2 s) _

/-! ### backward -/

theorem chainLen_congr {g g' : Graph V} : ∀ i, (∀ j, j ≤ i → g'.ctx j = g.ctx j) → chainLen g' i = chainLen g i := by
  intro i
  induction i using Nat.strongRecOn with
  | ind i ih =>
    intro h
    rw [chainLen, chainLen, h i (Nat.le_refl i)]
    have : (fun x => if _h : x < i then chainLen g' x else 0) = fun x => if _h : x < i then chainLen g x else 0 := by
      funext x
      split
      · rename_i hx; exact ih x hx fun j hj => h j (by omega)
      · rfl
    rw [this]

theorem backwardLim_eq (A : Scalar V) {w : World V} (h : WF w.g) (hn : NN w.g) (hs : GradShapes w) {y : Nat} (hy : y < w.g.length) {L : Nat} (hL : chainLen w.g y < L) :
    Bwd.backwardLim A L w y = Bwd.backward A w y := by
  obtain ⟨hst, _⟩ := seed_ok A h hn hs hy
  have hc : chainLen (Bwd.seed A w y).g y = chainLen w.g y := chainLen_congr y fun j hj => hst.ext.ctx (by omega)
  have hy' : y < (Bwd.seed A w y).g.length := Nat.lt_of_lt_of_le hy hst.ext.length
  have hle := chainLen_le h y hy
  unfold Bwd.backwardLim Bwd.backward
  simp only
  rw [dfs_fuel hst.wf hy' (fuel' := y + 1) (by omega) (by omega)]

/-! ### the chain of negations -/

/-- What the graph of the program `negations` looks like. -/
structure Negated (w : World V) (n : Nat) : Prop where
  len : w.g.length = n + 1
  zero : w.g.ctx 0 = .const
  succ : ∀ i, i < n → w.g.ctx (i + 1) = .unary .Neg i
  shape : ∀ i, i ≤ n → w.g.shape i = [2]
  log : w.log = []

theorem negations_run {b : Backend V} (hb : Faithful b) (u v : V) (n : Nat) : ∃ w, runAll b Mat.init (negations u v n) = .ok w ∧ Reachable b w ∧ Negated w n := by
  induction n with
  | zero =>
    refine ⟨_, rfl, ?_, ?_⟩
    · exact .call (c := .array (.node [.leaf u, .leaf v])) .init (.inr (show Rect _ from by simp [Rect, shapeOf, HasShape, HasShapeL])) rfl
    · exact ⟨rfl, rfl, fun i hi => absurd hi (Nat.not_lt_zero _), fun i hi => by cases Nat.le_zero.1 hi; rfl, rfl⟩
  | succ n ih =>
    obtain ⟨w, e, hr, hd⟩ := ih
    have hsh : w.g.shape n = [2] := hd.shape n (by omega)
    have hs : step b w (.un .neg n) = .ok (.arr (n + 1), { w with g := w.g ++ [ND.elemwiseNode w.g (.unary .Neg n) n] }) := by
      unfold step
      rw [if_pos (by simp [Call.arrays, hd.len])]
      simp [exec1, ND.unary, Graph.push, hd.len, made, Un.op, pure, Except.pure]
    have hnd : ∀ i, i ≤ n → Graph.nd (w.g ++ [ND.elemwiseNode w.g (.unary .Neg n) n]) i = w.g.nd i := by
      intro i hi
      unfold Graph.nd
      rw [List.getD_eq_getElem?_getD, List.getD_eq_getElem?_getD, List.getElem?_append_left (by rw [hd.len]; omega)]
    have hndl : Graph.nd (w.g ++ [ND.elemwiseNode w.g (.unary .Neg n) n]) (n + 1) = ND.elemwiseNode w.g (.unary .Neg n) n := by
      have := nd_push w.g (ND.elemwiseNode w.g (.unary .Neg n) n)
      rwa [hd.len] at this
    refine ⟨_, ?_, .call (c := .un .neg n) hr (.inr trivial) (by unfold next; rw [hs]), ?_⟩
    · have hl : negations u v (n + 1) = negations u v n ++ [.un .neg n] := by simp [negations, List.range_succ]
      rw [hl, runAll_append e]
      simp only [runAll, hs]
    · refine ⟨by simp [hd.len], by show (Graph.nd _ 0).ctx = _; rw [hnd 0 (by omega)]; exact hd.zero, ?_, ?_, hd.log⟩
      · intro i hi
        show (Graph.nd _ (i + 1)).ctx = _
        by_cases hin : i = n
        · subst hin; rw [hndl]; rfl
        · rw [hnd (i + 1) (by omega)]; exact hd.succ i (by omega)
      · intro i hi
        show (Graph.nd _ i).shape = _
        by_cases hin : i = n + 1
        · subst hin; rw [hndl]; exact hsh
        · rw [hnd i (by omega)]; exact hd.shape i (by omega)

theorem Negated.chainLen {w : World V} {n : Nat} (h : Negated w n) : ∀ i, i ≤ n → chainLen w.g i = i := by
  intro i
  induction i with
  | zero => intro _; rw [Whale.chainLen, h.zero]; rfl
  | succ i ih =>
    intro hi
    rw [Whale.chainLen, h.succ i (by omega)]
    simp [Ctx.inputs, ih (by omega)]
    omega

theorem arrToFunc_deep {g : Graph V} {n : Nat} (hc : ∀ i, i < n → g.ctx (i + 1) = .unary .Neg i) : ∀ {fuel i : Nat}, i ≤ n → fuel ≤ i →
    arrToFunc g fuel i Tbl.empty = .error .recursion := by
  intro fuel
  induction fuel with
  | zero => intro i _ _; rfl
  | succ fuel ih =>
    intro i hi hf
    cases i with
    | zero => omega
    | succ i =>
      have : Tbl.empty (i + 1) = none := rfl
      simp only [arrToFunc, this, hc i (by omega), Ctx.inputs, List.foldlM_cons, ih (i := i) (by omega) (by omega)]
      rfl

theorem dfs_deep {g : Graph V} {n : Nat} (hc : ∀ i, i < n → g.ctx (i + 1) = .unary .Neg i) : ∀ {fuel i : Nat} {seen funcs : List Nat}, i ≤ n → fuel ≤ i → (∀ j ∈ seen, i < j) →
    Bwd.dfs g fuel i (seen, funcs) = .error .recursion := by
  intro fuel
  induction fuel with
  | zero => intro i _ _ _ _ _; rfl
  | succ fuel ih =>
    intro i seen funcs hi hf hs
    cases i with
    | zero => omega
    | succ i =>
      have hns : i + 1 ∉ seen := fun h => Nat.lt_irrefl _ (hs _ h)
      have hs' : ∀ j ∈ (i + 1) :: seen, i < j := by
        intro j hj
        rcases List.mem_cons.1 hj with rfl | hj
        · omega
        · have := hs j hj; omega
      have hb : ((([i] : List Nat).isEmpty = true) ∨ i + 1 ∈ seen) = False := by simp [hns]
      simp only [Bwd.dfs, hc i (by omega), Ctx.inputs, hb, if_false, List.foldlM_cons, ih (i := i) (seen := (i + 1) :: seen) (by omega) (by omega) hs']
      rfl

theorem materializeLim_deep {b : Backend V} {w : World V} {n : Nat} (hd : Negated w n) (hn : 0 < n) {L : Nat} (hL : L ≤ n) : materializeLim b L w n = .error .recursion := by
  unfold materializeLim
  cases L with
  | zero => rfl
  | succ L =>
    have hc := hd.succ (n - 1) (by omega)
    rw [show n - 1 + 1 = n by omega] at hc
    simp only [materializeLimF, hc, Ctx.op, convertLim, arrToFunc_deep hd.succ (Nat.le_refl n) hL]
    rfl

theorem backwardLim_deep (A : Scalar V) {w : World V} (h : WF w.g) (hnn : NN w.g) (hs : GradShapes w) {n : Nat} (hd : Negated w n) {L : Nat} (hL : L ≤ n) : Bwd.backwardLim A L w n = .error .recursion := by
  obtain ⟨hst, _⟩ := seed_ok A h hnn hs (y := n) (by rw [hd.len]; omega)
  unfold Bwd.backwardLim
  simp only
  rw [dfs_deep (n := n) (fun i hi => by rw [hst.ext.ctx (by rw [hd.len]; omega)]; exact hd.succ i hi) (Nat.le_refl n) hL (by simp)]
  rfl

end Whale
