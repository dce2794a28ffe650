import Verif.Props.Construct
import Verif.Props.Transpose
import Verif.Props.Indexing
import Verif.Props.Reshape
import Verif.Props.Broadcast
import Verif.Props.Compute
/-
C19: the compiler computes the reference semantics.
-/
namespace Whale.Props
open Whale Mat Hist
variable {V : Type}

theorem toNestedAux_at (d : V) (s : List Int) (v : Nested V) (h : HasShape s v) : Tensor.toNestedAux s (v.at d) = v := by
  induction s generalizing v with
  | nil => cases v with
    | leaf x => simp [Tensor.toNestedAux, Nested.at]
    | node l => exact absurd h (by simp [HasShape])
  | cons n s ih => cases v with
    | leaf x => exact absurd h (by simp [HasShape])
    | node l =>
      simp only [HasShape] at h
      obtain ⟨hn, hl⟩ := h
      have hmem : ∀ (l : List (Nested V)), HasShapeL s l → ∀ x ∈ l, HasShape s x := by
        intro l
        induction l with
        | nil => intro _ x hx; cases hx
        | cons y l ih2 =>
          intro h x hx
          rcases List.mem_cons.1 hx with rfl | hx
          · exact h.1
          · exact ih2 h.2 x hx
      simp only [Tensor.toNestedAux, Nested.node.injEq]
      apply List.ext_getElem?
      intro k
      rw [List.getElem?_map, getElem?_irange]
      by_cases hk : k < l.length
      · rw [if_pos (by omega), List.getElem?_eq_getElem hk]
        simp only [Option.map_some, Option.some.injEq]
        have e : (fun r => (Nested.node l).at d ((k : Int) :: r)) = (l[k]).at d := by
          funext r
          simp only [Nested.at, Int.toNat_natCast, List.getElem?_eq_getElem hk]
        rw [e]
        exact ih _ (hmem l hl _ (List.getElem_mem hk))
      · rw [if_neg (by omega), List.getElem?_eq_none (by omega)]; rfl

theorem toNestedAux_inj {s : List Int} {f g : List Int → V} (h : Tensor.toNestedAux s f = Tensor.toNestedAux s g) : ∀ i, ValidIdx s i → f i = g i := by
  induction s generalizing f g with
  | nil => intro i hi; simp at hi; subst hi; simpa [Tensor.toNestedAux] using h
  | cons n s ih =>
    intro i hi
    cases i with
    | nil => simp at hi
    | cons k i =>
      simp only [validIdx_cons] at hi
      simp only [Tensor.toNestedAux, Nested.node.injEq] at h
      have := List.map_inj_left.1 h k (mem_irange.2 hi.1)
      exact ih this i hi.2

theorem bshape_is {s t r : List Int} (h : IsBroadcast s t r) : bshape s t = r := by
  refine IsBroadcast.unique (s := s) (t := t) ⟨by simp [bshape], fun k => ?_⟩ h
  by_cases hk : k < max s.length t.length
  · unfold bshape
    conv => lhs; unfold dimR
    rw [List.reverse_reverse, List.getD_eq_getElem?_getD, List.getElem?_map, List.getElem?_range hk]; rfl
  · rw [dimR_ge (by simp [bshape]; omega), dimR_ge (l := s) (by omega), dimR_ge (l := t) (by omega)]; simp

theorem valid_project {s r idx : List Int} (hb : BroadcastsTo s r) (hi : ValidIdx r idx) : ValidIdx s (project s idx) := by
  rw [project_eq hi]; exact valid_bcastIdx hb hi

theorem broadcastsTo_left {s t r : List Int} (hc : Compatible s t) (h : IsBroadcast s t r) : BroadcastsTo s r := by
  refine broadcastsTo_of_dimR (by rw [h.1]; omega) (fun k _ => ?_)
  rw [h.2 k]
  split <;> omega

theorem broadcastsTo_right {s t r : List Int} (hc : Compatible s t) (h : IsBroadcast s t r) : BroadcastsTo t r :=
  broadcastsTo_left (fun k => by have := hc k; omega) (h.symm hc)

theorem valid_pickIdx {s : List Int} {rs : List RawSub} {ps : List Pick} (h : picks s rs = some ps) {idx : List Int} (hi : ValidIdx (pickShape ps) idx) :
    ValidIdx s (pickIdx ps idx) := by
  have hmany : ∀ {n : Int} {l : List Int} {k : Int}, (∀ x ∈ l, 0 ≤ x ∧ x < n) → 0 ≤ k → k < (l.length : Int) → 0 ≤ geti l k.toNat ∧ geti l k.toNat < n := by
    intro n l k hl h0 h1
    rw [geti_eq_getElem (by omega)]
    exact hl _ (List.getElem_mem _)
  have hone : ∀ {n : Int} {r : RawSub} {p : Int}, pickSub n r = some (.one p) → 0 ≤ p ∧ p < n := by
    intro n r p h
    cases r with
    | int i =>
      simp only [pickSub] at h
      split at h
      · simp only [Option.some.injEq, Pick.one.injEq] at h; split at h <;> omega
      · cases h
    | slice a b c => simp only [pickSub] at h; split at h <;> simp at h
    | other => simp [pickSub] at h
  have hsl : ∀ {n : Int} {r : RawSub} {l : List Int}, pickSub n r = some (.many l) → ∀ x ∈ l, 0 ≤ x ∧ x < n := by
    intro n r l h
    cases r with
    | int i => simp only [pickSub] at h; split at h <;> simp at h
    | slice a b c =>
      simp only [pickSub] at h
      split at h
      · simp only [Option.some.injEq, Pick.many.injEq] at h
        subst h
        intro x hx
        exact mem_irange.1 (List.mem_filter.1 hx).1
      · cases h
    | other => simp [pickSub] at h
  induction s generalizing rs ps idx with
  | nil => cases rs with
    | nil => simp only [picks, Option.some.injEq] at h; subst h; simp [pickIdx]
    | cons => simp [picks] at h
  | cons n s ih =>
    cases rs with
    | nil =>
      simp only [picks, Option.map_eq_some_iff] at h
      obtain ⟨qs, hq, rfl⟩ := h
      cases idx with
      | nil => simp [pickShape] at hi
      | cons k idx =>
        simp only [pickShape, validIdx_cons] at hi
        exact ⟨hmany (fun x hx => mem_irange.1 hx) hi.1.1 hi.1.2, ih hq hi.2⟩
    | cons r rs =>
      simp only [picks] at h
      split at h
      · rename_i p qs hp hq
        cases h
        cases p with
        | one p => exact ⟨hone hp, ih hq hi⟩
        | many l =>
          cases idx with
          | nil => simp [pickShape] at hi
          | cons k idx =>
            simp only [pickShape, validIdx_cons] at hi
            exact ⟨hmany (hsl hp) hi.1.1 hi.1.2, ih hq hi.2⟩
      · cases h

theorem sum_congr {A : Scalar V} {t u : Tensor V} (h : t.Equiv u) (ax : List Nat) (kd : Bool) : (t.sum A ax kd).Equiv (u.sum A ax kd) := by
  refine ⟨by simp only [Tensor.sum, h.1], fun idx _ => ?_⟩
  simp only [Tensor.sum]
  rw [← h.1]
  generalize A.ofInt 0 = z
  have : ∀ (l : List (List Int)) (z : V), (∀ j ∈ l, ValidIdx t.shape j) → l.foldl (fun acc j => A.bin .Add acc (t.get j)) z = l.foldl (fun acc j => A.bin .Add acc (u.get j)) z := by
    intro l
    induction l with
    | nil => intro _ _; rfl
    | cons j l ih => intro z hj; rw [List.foldl_cons, List.foldl_cons, h.2 j (hj j List.mem_cons_self)]; exact ih _ (fun k hk => hj k (List.mem_cons_of_mem _ hk))
  exact this _ z (fun j hj => mem_indices.1 (List.mem_filter.1 hj).1)

/-- One call: if the arguments are the tensors `ρ`, the returned array is the tensor the call is supposed to return. -/
theorem step_meaning {b : Backend V} (hb : Faithful b) {w : World V} (hw : Reachable b w) {c : Call V} (hok : ArgsOK b w c) {ρ : Nat → Tensor V}
    (hρ : ∀ a ∈ c.arrays, (value b w a).Equiv (ρ a)) {r : Nat} {w' : World V} (hs : step b w c = .ok (.arr r, w')) {T : Tensor V}
    (hT : meaning b.A w.g.dtype ρ c = some T) : Is b w' r T := by
  have h := hw.inv hb
  have hin : ∀ a ∈ c.arrays, a < w.g.length := by
    unfold step at hs
    split at hs
    · assumption
    · cases hs
  have hsh : ∀ a ∈ c.arrays, w.g.shape a = (ρ a).shape := fun a ha => ((h.is_value hb (hin a ha)).shape).trans (hρ a ha).1
  have hvs : ∀ a ∈ c.arrays, (value b w a).shape = w.g.shape a := fun a ha => den_shape b.A h.winv.wf (hin a ha)
  cases c with
  | array v =>
    simp only [meaning, Option.some.injEq] at hT
    subst hT
    obtain ⟨e, m, hd⟩ := array_s b.A h.winv.wf h.nn hok
    have e' := step_made (b := b) (w := w) (c := .array v) (r := (ND.const b.A w.g (shapeOf v) (leaves v)).1) (g' := (ND.const b.A w.g (shapeOf v) (leaves v)).2) (by simp [Call.arrays]) (by simp only [exec1, e])
    rw [hs] at e'; cases e'
    refine made_is hb h m ((Tensor.Equiv.of_eq (hd b.A)).trans ⟨rfl, toNestedAux_inj (s := shapeOf v) ?_⟩)
    rw [toNestedAux_at _ _ _ hok]
    have := toNested_leaves (b.A.ofInt 0) (pre := []) (post := []) hok (shapeOf_nonNeg v)
    simpa [Tensor.ofFlat] using this
  | arange n =>
    simp only [meaning, Option.some.injEq] at hT
    subst hT
    obtain ⟨r', w1, e, hi, _⟩ := C03_arange hb hw n
    rw [hs] at e; cases e; exact hi
  | full s v =>
    simp only [meaning, Option.some.injEq] at hT
    subst hT
    obtain ⟨r', w1, e, hi, _⟩ := C03_full hb hw hok v
    rw [hs] at e; cases e; exact hi
  | fullLike a v =>
    simp only [meaning, Option.some.injEq] at hT
    subst hT
    obtain ⟨r', w1, e, hi, _⟩ := C03_full_like hb hw (hin a (by simp [Call.arrays])) v
    rw [hs] at e; cases e
    rw [← hsh a (by simp [Call.arrays])]; exact hi
  | onesLike a =>
    simp only [meaning, Option.some.injEq] at hT
    subst hT
    obtain ⟨r', w1, one, rfl, e, hi, _⟩ := C03_ones_like hb hw (hin a (by simp [Call.arrays]))
    rw [hs] at e; cases e
    rw [← hsh a (by simp [Call.arrays])]; exact hi
  | zerosLike a =>
    simp only [meaning, Option.some.injEq] at hT
    subst hT
    obtain ⟨r', w1, e, hi, _⟩ := C03_zeros_like hb hw (hin a (by simp [Call.arrays]))
    rw [hs] at e; cases e
    rw [← hsh a (by simp [Call.arrays])]; exact hi
  | un op a =>
    simp only [meaning, Option.some.injEq] at hT
    subst hT
    obtain ⟨r', w1, e, hi⟩ := C13_unary hb hw (hin a (by simp [Call.arrays])) op
    rw [hs] at e; cases e
    have ha := hρ a (by simp [Call.arrays])
    refine hi.congr ⟨hsh a (by simp [Call.arrays]), fun i hi => ?_⟩
    show b.A.un _ _ = b.A.un _ _
    rw [ha.2 i (by rw [hvs a (by simp [Call.arrays])]; exact hi)]
  | bin op x y =>
    simp only [meaning, Option.some.injEq] at hT
    subst hT
    have hx : x ∈ (Call.bin op x y : Call V).arrays := by simp [Call.arrays]
    have hy : y ∈ (Call.bin op x y : Call V).arrays := by simp [Call.arrays]
    have hc : Compatible (w.g.shape x) (w.g.shape y) := by
      by_contra hn
      obtain ⟨e, he⟩ := (C11_raises hb hw (hin x hx) (hin y hy) op).2 hn
      rw [hs] at he; cases he
    obtain ⟨r', w1, s, e, hbc, hi⟩ := C13_binary hb hw (hin x hx) (hin y hy) op hc
    rw [hs] at e; cases e
    rw [← hsh x hx, ← hsh y hy, bshape_is hbc]
    refine hi.congr ⟨rfl, fun i hi => ?_⟩
    have hi' : ValidIdx s i := hi
    show b.A.bin _ _ _ = b.A.bin _ _ _
    rw [(hρ x hx).2 _ (by rw [hvs x hx]; exact valid_project (broadcastsTo_left hc hbc) hi'),
      (hρ y hy).2 _ (by rw [hvs y hy]; exact valid_project (broadcastsTo_right hc hbc) hi')]
  | binScalar op a v =>
    simp only [meaning, Option.some.injEq] at hT
    subst hT
    obtain ⟨r', w1, e, hi⟩ := C13_scalar hb hw (hin a (by simp [Call.arrays])) op v
    rw [hs] at e; cases e
    have ha := hρ a (by simp [Call.arrays])
    refine hi.congr ⟨hsh a (by simp [Call.arrays]), fun i hi => ?_⟩
    show b.A.bin _ _ _ = b.A.bin _ _ _
    rw [ha.2 i (by rw [hvs a (by simp [Call.arrays])]; exact hi)]
  | sum a ax kd =>
    have ham : a ∈ (Call.sum a ax kd : Call V).arrays := by simp [Call.arrays]
    simp only [meaning] at hT
    split at hT
    case isFalse => cases hT
    rename_i hr
    cases hT
    rw [← hsh a ham] at hr ⊢
    obtain ⟨r', w1, e, hi⟩ := C14_sum hb hw (hin a ham) kd hr
    rw [hs] at e; cases e
    refine (hi.congr ?_).congr (sum_congr (hρ a ham) _ kd)
    unfold Tensor.sum
    rw [hvs a ham]
    exact .refl _
  | getitem a subs =>
    have ham : a ∈ (Call.getitem a subs : Call V).arrays := by simp [Call.arrays]
    simp only [meaning, Option.map_eq_some_iff] at hT
    obtain ⟨ps, hps, rfl⟩ := hT
    rw [← hsh a ham] at hps
    obtain ⟨r', w1, e, hi⟩ := (C08_getitem hb hw (hin a ham) subs).2 ps hps
    rw [hs] at e; cases e
    exact hi.congr ⟨rfl, fun i hi => (hρ a ham).2 _ (by rw [hvs a ham]; exact valid_pickIdx hps hi)⟩
  | broadcastTo a s =>
    have ham : a ∈ (Call.broadcastTo a s : Call V).arrays := by simp [Call.arrays]
    simp only [meaning, Option.some.injEq] at hT
    subst hT
    obtain ⟨m, d⟩ := broadcast_s h.winv.wf h.nn (hin a ham) hok.1 hok.2
    have e := step_made (b := b) (c := .broadcastTo a s) hin (by simp only [exec1]; rfl)
    rw [hs] at e; cases e
    refine made_is hb h m ((Tensor.Equiv.of_eq (d b.A)).trans ⟨rfl, fun i hi => ?_⟩)
    have hi' : ValidIdx s i := hi
    rw [← hsh a ham]
    show (den b.A w.g a).get _ = (ρ a).get _
    rw [← (hρ a ham).2 _ (by rw [hvs a ham]; exact valid_project hok.1 hi'), project_eq hi', ← hvs a ham]; rfl
  | reshape a s =>
    have ham : a ∈ (Call.reshape a s : Call V).arrays := by simp [Call.arrays]
    simp only [meaning, Option.some.injEq] at hT
    subst hT
    have hp : prod s = prod (w.g.shape a) := by
      by_contra hn
      obtain ⟨e, he⟩ := (C10_rejects_partial (b := b) (hin a ham) s).2 hn
      rw [hs] at he; cases he
    obtain ⟨r', g', e1, m, d⟩ := reshape_s h.winv.wf h.nn (hin a ham) hp hok
    have e := step_made (b := b) (c := .reshape a s) (r := r') (g' := g') hin (by simp only [exec1, e1])
    rw [hs] at e; cases e
    refine made_is hb h m ((Tensor.Equiv.of_eq (d b.A)).trans ⟨rfl, fun i hi => ?_⟩)
    have hi' : ValidIdx s i := hi
    have hb1 := ravel_bounds hi'
    rw [← hsh a ham]
    show (den b.A w.g a).get _ = (ρ a).get _
    rw [← (hρ a ham).2 _ (by rw [hvs a ham]; exact (valid_unravel (h.nn a (hin a ham)).1 hb1.1 (by rw [← hp]; exact hb1.2)).1), ← hvs a ham]; rfl
  | T a =>
    have ham : a ∈ (Call.T a : Call V).arrays := by simp [Call.arrays]
    simp only [meaning, Option.some.injEq] at hT
    subst hT
    obtain ⟨r', w1, e, hi⟩ := C06_T hb hw (hin a ham)
    rw [hs] at e; cases e
    rw [← hsh a ham]
    refine hi.congr ⟨rfl, fun i hi => (hρ a ham).2 _ ?_⟩
    have hi' : ValidIdx (w.g.shape a).reverse i := hi
    rw [hvs a ham]
    rw [validIdx_iff] at hi' ⊢
    simp only [List.length_reverse] at hi' ⊢
    refine ⟨hi'.1, fun k hk => ?_⟩
    have := hi'.2 (i.length - 1 - k) (by omega)
    rw [geti_eq_getElem (by omega), geti_eq_getElem (by simp; omega), List.getElem_reverse] at this
    rw [geti_eq_getElem (by simp; omega), geti_eq_getElem (by omega), List.getElem_reverse]
    have e : (w.g.shape a).length - 1 - (i.length - 1 - k) = k := by omega
    simpa only [e] using this
  | transpose a axes =>
    have ham : a ∈ (Call.transpose a axes : Call V).arrays := by simp [Call.arrays]
    simp only [meaning, Option.some.injEq] at hT
    subst hT
    have hp : IsPerm axes (w.g.ndim a) := by
      by_contra hn
      obtain ⟨e, he⟩ := (C06_raises (b := b) (hin a ham) axes).2 hn
      rw [hs] at he; cases he
    obtain ⟨r', g', e1, m, d⟩ := transpose_s h.winv.wf h.nn (hin a ham) (pySort_range hp)
    have e := step_made (b := b) (c := .transpose a axes) (r := r') (g' := g') hin (by simp only [exec1, e1])
    rw [hs] at e; cases e
    refine made_is hb h m ((Tensor.Equiv.of_eq (d b.A)).trans ⟨?_, fun i hi => ?_⟩)
    · simp only [Tensor.transpose]
      rw [show (den b.A w.g a).shape = (ρ a).shape from (hρ a ham).1]
    · simp only [Tensor.transpose]
      refine (hρ a ham).2 _ (valid_permIdx (s := (value b w a).shape) ?_ hi)
      rw [hvs a ham]; exact hp.nat
  | contiguous a =>
    have ham : a ∈ (Call.contiguous a : Call V).arrays := by simp [Call.arrays]
    simp only [meaning, Option.some.injEq] at hT
    subst hT
    obtain ⟨r', w1, e, hi, _⟩ := C18_contiguous hb hw (hin a ham)
    rw [hs] at e; cases e
    exact hi.congr (hρ a ham)
  | pad a d x y =>
    have ham : a ∈ (Call.pad a d x y : Call V).arrays := by simp [Call.arrays]
    simp only [meaning, Option.some.injEq] at hT
    subst hT
    obtain ⟨hd0, hn⟩ := hok
    have hd1 : d < w.g.ndim a := by
      by_contra hn
      obtain ⟨e, he⟩ := (C16_raises (b := b) (hin a ham) d x y).2 (.inl (by omega))
      rw [hs] at he; cases he
    have hlt : d.toNat < (w.g.shape a).length := by unfold Graph.ndim at hd1; omega
    obtain ⟨r', w1, e, hi⟩ := C16_pad_partial hb hw (hin a ham) (dim := d.toNat) (before := x) (after := y) (by unfold Graph.ndim; omega) hn
    rw [Int.toNat_of_nonneg hd0, hs] at e; cases e
    refine hi.congr ⟨by simp only [Tensor.pad]; rw [hsh a ham], fun i hi => ?_⟩
    have hi' : ValidIdx ((w.g.shape a).set d.toNat _) i := hi
    simp only [Tensor.pad]
    rw [← hsh a ham]
    split
    · exact (hρ a ham).2 _ (by rw [hvs a ham]; exact validIdx_set hlt hi' rfl (by omega) (by omega))
    · rfl
  | dilate a d st =>
    have ham : a ∈ (Call.dilate a d st : Call V).arrays := by simp [Call.arrays]
    simp only [meaning, Option.some.injEq] at hT
    subst hT
    obtain ⟨hd0, hst, hn⟩ := hok
    have hd1 : d < w.g.ndim a := by
      by_contra hn
      obtain ⟨e, he⟩ : ∃ e, step b w (.dilate a d st) = .error e := by
        rw [step_eq hin]
        simp only [exec1, ND.dilate]
        rw [if_pos (by omega)]; exact ⟨_, rfl⟩
      rw [hs] at he; cases he
    have hlt : d.toNat < (w.g.shape a).length := by unfold Graph.ndim at hd1; omega
    have hr : 0 ≤ (geti (w.g.shape a) d.toNat - 1) * st + 1 := by
      rcases hn with rfl | hn
      · have : 0 ≤ geti (w.g.shape a) d.toNat := by rw [geti_eq_getElem hlt]; exact (h.nn a (hin a ham)).1 _ (List.getElem_mem _)
        omega
      · have := Int.mul_nonneg (show 0 ≤ geti (w.g.shape a) d.toNat - 1 by omega) (show 0 ≤ st by omega); omega
    obtain ⟨r', g', e1, m, dd⟩ := dilate_s (dim := d) (st := st) h.winv.wf h.nn (hin a ham) hd0 hd1 hst hr
    have e := step_made (b := b) (c := .dilate a d st) (r := r') (g' := g') hin (by simp only [exec1, e1])
    rw [hs] at e; cases e
    refine made_is hb h m ((dd b.A).trans ⟨by simp only [Tensor.dilate]; rw [← hsh a ham, den_shape b.A h.winv.wf (hin a ham)], fun i hi => ?_⟩)
    have hi' : ValidIdx ((den b.A w.g a).shape.set d.toNat ((geti (den b.A w.g a).shape d.toNat - 1) * st + 1)) i := hi
    rw [den_shape b.A h.winv.wf (hin a ham)] at hi'
    simp only [Tensor.dilate]
    split
    · have hg := (validIdx_iff.1 hi').2 d.toNat (by simpa using hlt)
      rw [geti_set, if_pos ⟨rfl, hlt⟩] at hg
      exact (hρ a ham).2 _ (by rw [hvs a ham]; exact validIdx_set hlt hi' rfl (Int.ediv_nonneg hg.1 (by omega)) (dilate_bound hst hg.2))
    · rfl
  | materialize a => cases hT
  | tolist a => cases hT
  | backward a => cases hT
  | grad a => cases hT
  | clearGrad a => cases hT
  | setGrad a k => cases hT
  | reset => cases hT

theorem _root_.Whale.Tracks.reachable {b : Backend V} {w : World V} {H : List (Nat × Tensor V)} (h : Tracks b w H) : Reachable b w := by
  induction h with
  | init => exact .init
  | returns ρ _ ha _ hs _ ih => exact .call ih (.inr ha) (by unfold next; rw [hs])
  | other _ hl hn ih => exact .call ih hl hn
  | stopped _ hy ha hs ih => exact .stopped ih hy ha hs

theorem _root_.Whale.Is.later {b : Backend V} (hb : Faithful b) {w w' : World V} (hw : Reachable b w) (hr : Runs b w w') {a : Nat} {T : Tensor V} (h : Is b w a T) : Is b w' a T := by
  obtain ⟨h', hl⟩ := hr.later hb (hw.inv hb)
  refine h'.is_of hb (Nat.lt_of_lt_of_le h.exists_ hl.ext.length) ?_
  rw [den_ext b.A hl.ext h'.winv.wf h.exists_]; exact h.value

/-- C19.  Run any program of API calls.  Every array that a call returned is, at every later moment, the tensor that the reference semantics gives for that
call: shape, elements as operand, and the list returned by `materialize()` followed by `tolist()`, neither of which raises. -/
theorem C19_compiler_correct {b : Backend V} (hb : Faithful b) {w : World V} {H : List (Nat × Tensor V)} (h : Tracks b w H) {a : Nat} {T : Tensor V}
    (ha : (a, T) ∈ H) : Is b w a T := by
  induction h generalizing a T with
  | init => cases ha
  | @returns w w' H c r T' ρ ht hok hargs hs hm ih =>
    rcases List.mem_cons.1 ha with he | ha
    · cases he
      exact step_meaning hb ht.reachable hok (fun x hx => (ih (hargs x hx)).value) hs hm
    · exact (ih ha).later hb ht.reachable (.call .refl (.inr hok) (by unfold next; rw [hs]))
  | other ht hl hn ih => exact (ih ha).later hb ht.reachable (.call .refl hl hn)
  | stopped ht hy hok hs ih => exact (ih ha).later hb ht.reachable (.stopped .refl hy hok hs)

/-- Every call that returns an array has a reference meaning, except reading a gradient and a sum over out-of-range axes; so `Tracks` follows every program. -/
theorem C19_total {b : Backend V} (hb : Faithful b) {w : World V} (hw : Reachable b w) {c : Call V} {r : Nat} {w' : World V} (hs : step b w c = .ok (.arr r, w'))
    (hg : ∀ a, c ≠ .grad a) (hsum : ∀ a ax kd, c = .sum a ax kd → AxesInRange (w.g.ndim a) ax) {ρ : Nat → Tensor V} (hρ : ∀ a ∈ c.arrays, (ρ a).shape = w.g.shape a) :
    ∃ T, meaning b.A w.g.dtype ρ c = some T := by
  cases c <;> try exact ⟨_, rfl⟩
  case sum a ax kd =>
    simp only [meaning]
    rw [if_pos (by rw [hρ a (by simp [Call.arrays])]; exact hsum a ax kd rfl)]
    exact ⟨_, rfl⟩
  case getitem a subs =>
    have ha : a < w.g.length := by
      unfold step at hs
      split at hs
      · rename_i hin; exact hin a (by simp [Call.arrays])
      · cases hs
    simp only [meaning]
    rw [hρ a (by simp [Call.arrays])]
    cases hp : picks (w.g.shape a) subs with
    | some ps => exact ⟨_, rfl⟩
    | none =>
      obtain ⟨e, he⟩ := (C08_getitem hb hw ha subs).1.2 hp
      rw [hs] at he; cases he
  case grad a => exact absurd rfl (hg a)
  all_goals
    unfold step at hs
    split at hs
    · simp only [exec1] at hs
      first
        | (cases hm : Mat.materialize b w _ <;> rw [hm] at hs <;> cases hs)
        | (cases hm : Mat.tolist b w _ <;> rw [hm] at hs <;> cases hs)
        | (cases hm : Bwd.backward b.A w _ <;> rw [hm] at hs <;> cases hs)
        | cases hs
    · cases hs

/-- Run a program and its reference semantics side by side. -/
def trackL (b : Backend V) : World V → List (Nat × Tensor V) → List (Call V) → Option (World V × List (Nat × Tensor V))
  | w, H, [] => some (w, H)
  | w, H, c :: cs =>
    let ρ : Nat → Tensor V := fun a => (H.lookup a).getD ⟨[], fun _ => b.A.ofInt 0⟩
    if argsOKb b w c then
      match step b w c with
      | .ok (.arr r, w') => match meaning b.A w.g.dtype ρ c with
        | some T => if c.arrays.all fun a => (H.lookup a).isSome then trackL b w' ((r, T) :: H) cs else none
        | none => trackL b w' H cs
      | .ok (_, w') => trackL b w' H cs
      | .error _ => none
    else none

theorem lookup_mem {H : List (Nat × Tensor V)} {a : Nat} {T : Tensor V} (h : H.lookup a = some T) : (a, T) ∈ H := by
  induction H with
  | nil => cases h
  | cons p H ih =>
    obtain ⟨k, U⟩ := p
    rw [List.lookup_cons] at h
    by_cases hk : a = k
    · subst hk; simp only [beq_self_eq_true] at h; cases h; exact List.mem_cons_self
    · have : (a == k) = false := by simpa using hk
      rw [this] at h; exact List.mem_cons_of_mem _ (ih h)

theorem trackL_sound {b : Backend V} (hb : Faithful b) {w : World V} {H : List (Nat × Tensor V)} (h0 : Tracks b w H) {cs : List (Call V)} {w' : World V} {H' : List (Nat × Tensor V)}
    (h : trackL b w H cs = some (w', H')) : Tracks b w' H' := by
  induction cs generalizing w H with
  | nil => cases h; exact h0
  | cons c cs ih =>
    unfold trackL at h
    simp only at h
    split at h
    case isFalse => cases h
    rename_i ha
    cases hs : step b w c with
    | error e => rw [hs] at h; cases h
    | ok p =>
      have hok : ArgsOK b w c := argsOKb_sound (by
        unfold step at hs
        split at hs
        · assumption
        · cases hs) (h0.reachable.inv hb).winv.wf ha
      obtain ⟨o, w1⟩ := p
      rw [hs] at h
      have hother : Tracks b w1 H := .other h0 (.inr hok) (by unfold next; rw [hs])
      cases o with
      | arr r =>
        simp only at h
        split at h
        · rename_i T hT
          split at h
          case isFalse => cases h
          rename_i hall
          refine ih (.returns _ h0 hok (fun a haa => ?_) hs hT) h
          have := List.all_eq_true.1 hall a haa
          obtain ⟨U, hU⟩ := Option.isSome_iff_exists.1 this
          simp only [hU, Option.getD_some]
          exact lookup_mem hU
        · exact ih hother h
      | list l => exact ih hother h
      | unit => exact ih hother h

/-- A program with a transpose, a broadcast subtraction, a reduction, an array used twice, a reshape and a slice. -/
def demoProg : List (Call Int) :=
  [.array Demo.m23, .T 0, .sum 0 (.int 1) true, .bin .sub 0 2, .bin .mul 4 4, .reshape 5 [3, 2], .bin .add 6 1, .materialize 7,
   .getitem 7 [.slice (some 1) none none, .int (-1)]]

/-- Reference shape and elements of the arrays the program has, latest first. -/
def demoMeaning : List (Nat × List Int × List Int) := match trackL Demo.py Mat.init [] demoProg with
  | some (_, H) => H.map fun p => (p.1, p.2.shape, p.2.flatten)
  | none => []

/-- The program is tracked, and the reference semantics and the read-back lists are these. -/
example : (∃ w H, Tracks Demo.py w H ∧ H.length = 8) ∧ demoMeaning.take 2 = [(8, [2], [126, 87]), (7, [3, 2], [26, 20, 11, 126, 103, 87])] ∧
    Demo.listOf demoProg (.tolist 7) = some ([3, 2], [26, 20, 11, 126, 103, 87]) ∧ Demo.listOf demoProg (.tolist 8) = some ([2], [126, 87]) := by
  refine ⟨?_, by decide +kernel, by decide +kernel, by decide +kernel⟩
  have hl : ((trackL Demo.py Mat.init [] demoProg).map fun p => p.2.length) = some 8 := by decide +kernel
  obtain ⟨⟨w, H⟩, h, hH⟩ := Option.map_eq_some_iff.1 hl
  exact ⟨w, H, trackL_sound Demo.py_faithful .init h, hH⟩

end Whale.Props
