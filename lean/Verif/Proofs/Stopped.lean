import Verif.Proofs.Backward
/-
`backward` left in the middle: the state is consistent.
-/
namespace Whale
open Bwd
variable {V : Type}

/-- A world between two consistent ones: some of the arrays of the second, the gradients of the first. -/
theorem BStep.between {w w' : World V} (hs : GradShapes w) (h : BStep w w') {g' : Graph V} (h1 : w.g <+: g') (h2 : g' <+: w'.g) : BStep w { w with g := g' } := by
  have e2 : Ext g' w'.g := h2
  have e1 : Ext w.g g' := h1
  refine ⟨e1, WF.of_ext e2 h.wf, ?_, ?_, fun _ h => h, rfl⟩
  · intro i hi
    have := h.nn i (Nat.lt_of_lt_of_le hi e2.length)
    rw [e2.shape hi, e2.ctx hi] at this
    exact this
  · intro i k hk
    obtain ⟨a, b, c⟩ := hs i k hk
    exact ⟨Nat.lt_of_lt_of_le a e1.length, Nat.lt_of_lt_of_le b e1.length, by show g'.shape k = g'.shape i; rw [e1.shape a, e1.shape b, c]⟩

/-- The hypotheses of `visits_ok` for an initial part of the order. -/
theorem visits_prefix (A : Scalar V) {w : World V} (h : WF w.g) (hn : NN w.g) (hs : GradShapes w) {y : Nat} (hy : y < w.g.length) (hb : BackwardOK w.g y) {seen funcs pre post : List Nat} {t : Nat}
    (hd : dfs (seed A w y).g (y + 1) y ([], []) = .ok (seen, funcs)) (hsplit : funcs.reverse = pre ++ t :: post) :
    ∃ w1, pre.foldlM (visit A) (seed A w y) = .ok w1 ∧ BStep w w1 ∧ (∀ i, ¬ Reach w.g y i → w1.grad i = w.grad i) ∧ (w1.grad t).isSome ∧ Reach w.g y t ∧ (w.g.ctx t).inputs ≠ [] := by
  obtain ⟨b0, s0, u0, v0⟩ := seed_ok A h hn hs hy
  have hy1 : y < (seed A w y).g.length := Nat.lt_of_lt_of_le hy b0.ext.length
  obtain ⟨seen', ord, e, hnd, hif, hmem, hcons⟩ := dfs_root b0.wf hy1
  rw [hd] at e; cases e
  have hmem' : ∀ z, z ∈ funcs ↔ Reach w.g y z ∧ (w.g.ctx z).inputs ≠ [] := by
    intro z
    rw [hmem, Reach.ext b0.ext h hy]
    constructor
    · rintro ⟨h1, h2⟩; exact ⟨h1, by rwa [b0.ext.ctx (Nat.lt_of_le_of_lt (h1.le h hy) hy)] at h2⟩
    · rintro ⟨h1, h2⟩; exact ⟨h1, by rwa [b0.ext.ctx (Nat.lt_of_le_of_lt (h1.le h hy) hy)]⟩
  have hlt : ∀ z ∈ funcs, z < w.g.length := fun z hz => Nat.lt_of_le_of_lt (((hmem' z).1 hz).1.le h hy) hy
  have hfirst : ConsumersFirst (seed A w y).g funcs.reverse := by
    intro l1 f l2 el x hx
    have hf : f ∈ funcs := by rw [← List.mem_reverse, el]; simp
    have hxf := b0.wf.inputs_lt (Nat.lt_of_lt_of_le (hlt f hf) b0.ext.length) x hx
    refine ⟨fun hm => ?_, by omega⟩
    have el' := reverse_split el
    have hxo : x ∈ funcs := by rw [el']; simp [hm]
    have hxn := ((hmem x).1 hxo).2
    have := hif _ _ _ el' x hx hxn
    rw [el'] at hnd
    have hd := List.nodup_append.1 hnd
    exact hd.2.2 x this x (by simp [hm]) rfl
  have hready : ∀ l1 f l2, funcs.reverse = l1 ++ f :: l2 → ((seed A w y).grad f).isSome ∨ ∃ c ∈ l1, f ∈ ((seed A w y).g.ctx c).inputs := by
    intro l1 f l2 el
    have hf : f ∈ funcs := by rw [← List.mem_reverse, el]; simp
    rcases hcons f hf with rfl | ⟨c, hc, hfc⟩
    · exact .inl s0
    · refine .inr ⟨c, ?_, hfc⟩
      rw [← List.mem_reverse, el] at hc
      rcases List.mem_append.1 hc with hc | hc
      · exact hc
      · exfalso
        rcases List.mem_cons.1 hc with rfl | hc
        · have := b0.wf.inputs_lt (Nat.lt_of_lt_of_le (hlt c hf) b0.ext.length) c hfc; omega
        · obtain ⟨m1, m2, em⟩ := List.append_of_mem hc
          have := hfirst (l1 ++ f :: m1) c m2 (by rw [el, em]; simp) f hfc
          exact this.1 (by simp)
  have hpre : ∀ z ∈ pre, z ∈ funcs := fun z hz => by rw [← List.mem_reverse, hsplit]; simp [hz]
  have htf : t ∈ funcs := by rw [← List.mem_reverse, hsplit]; simp
  obtain ⟨w', e', b', u', v', s'⟩ := visits_ok A (seed A w y).g (seedT A w y) pre [] b0.wf b0.nn b0.gs (Ext.refl _) b0.wf
    (by
      intro t ht
      have ht' : t ∈ funcs := hpre t (by simpa using ht)
      refine ⟨Nat.lt_of_lt_of_le (hlt t ht') b0.ext.length, ((hmem t).1 ht').2, GradNode.ext b0.ext h (hlt t ht') (hb t ((hmem' t).1 ht').1)⟩)
    (by
      rw [List.nil_append]
      have : (pre ++ t :: post).Nodup := by rw [← hsplit]; simpa using hnd
      exact (List.nodup_append.1 this).1)
    (by
      rw [List.nil_append]
      intro l1 f l2 el
      exact hfirst l1 f (l2 ++ t :: post) (by rw [hsplit, el]; simp))
    (by
      intro l1 f l2 el
      exact hready l1 f (l2 ++ t :: post) (by rw [hsplit, el]; simp))
    (by intro i _; exact v0 i) (by simp)
  refine ⟨w', e', b0.trans b', fun i hi => ?_, ?_, (hmem' t).1 htf⟩
  · rw [u' i (fun t ht hin => ?_), u0 i (fun e => hi (e ▸ .refl))]
    have ht' := hpre t ht
    rw [b0.ext.ctx (hlt t ht')] at hin
    exact hi (.step ((hmem' t).1 ht').1 hin)
  · rcases hready pre t post hsplit with h1 | ⟨c, hc, htc⟩
    · exact b'.mono t h1
    · exact (s' c (by simpa using hc)).2 t htc

/-- An initial part of the additions at one array. -/
theorem accums_prefix (A : Scalar V) {g : Graph V} {xs ys : List Nat} {Ts : List (Tensor V)} {done rest : List (Nat × Nat)} {p : Nat × Nat} : ∀ {w : World V}, WF w.g → NN w.g → GradShapes w → Ext g w.g →
    (∀ x ∈ xs, x < g.length) → Grads A g w.g xs ys Ts → xs.zip ys = done ++ p :: rest →
    ∃ w' w'', done.foldlM accum w = .ok w' ∧ BStep w w' ∧ (∀ i, i ∉ xs → w'.grad i = w.grad i) ∧ accum w' p = .ok w'' ∧ BStep w' w'' := by
  induction done generalizing xs ys Ts with
  | nil =>
    intro w h hn hs he hx hg hz
    cases xs with
    | nil => simp at hz
    | cons x xs => cases ys with
      | nil => simp at hz
      | cons y ys => cases Ts with
        | nil => simp [Grads] at hg
        | cons T Ts =>
          obtain ⟨⟨h1, h2, h3⟩, h4⟩ := hg
          simp only [List.zip_cons_cons, List.nil_append, List.cons.injEq] at hz
          obtain ⟨rfl, _⟩ := hz
          have hxg := hx x (by simp)
          obtain ⟨w1, e1, b1, _⟩ := accum_ok A h hn hs (Nat.lt_of_lt_of_le hxg he.length) h1 (by rw [h2, he.shape hxg])
          exact ⟨w, w1, rfl, .refl h hn hs, fun _ _ => rfl, e1, b1⟩
  | cons q done ih =>
    intro w h hn hs he hx hg hz
    cases xs with
    | nil => simp at hz
    | cons x xs => cases ys with
      | nil => simp at hz
      | cons y ys => cases Ts with
        | nil => simp [Grads] at hg
        | cons T Ts =>
          obtain ⟨⟨h1, h2, h3⟩, h4⟩ := hg
          simp only [List.zip_cons_cons, List.cons_append, List.cons.injEq] at hz
          obtain ⟨rfl, hz⟩ := hz
          have hxg := hx x (by simp)
          obtain ⟨w1, e1, b1, _, u1, _⟩ := accum_ok A h hn hs (Nat.lt_of_lt_of_le hxg he.length) h1 (by rw [h2, he.shape hxg])
          obtain ⟨w2, w3, e2, b2, u2, e3, b3⟩ := ih b1.wf b1.nn b1.gs (he.trans b1.ext) (fun z hz => hx z (List.mem_cons_of_mem _ hz)) (h4.ext b1.ext b1.wf) hz
          refine ⟨w2, w3, ?_, b1.trans b2, fun i hi => ?_, e3, b3⟩
          · simp only [List.foldlM_cons, e1, bind, Except.bind]; exact e2
          · simp only [List.mem_cons, not_or] at hi
            rw [u2 i hi.2, u1 i hi.1]

/-- Wherever `backward` is left: arrays are only added, gradients have the right shapes, nothing else changes, and no gradient of an array that `y` does not depend on. -/
theorem Bwd.Stopped.bstep (A : Scalar V) {w w' : World V} (h : WF w.g) (hn : NN w.g) (hs : GradShapes w) {y : Nat} (hy : y < w.g.length) (hb : BackwardOK w.g y) (hst : Stopped A w y w') :
    BStep w w' ∧ ∀ i, ¬ Reach w.g y i → w'.grad i = w.grad i := by
  obtain ⟨b0, s0, u0, v0⟩ := seed_ok A h hn hs hy
  cases hst with
  | start => exact ⟨.refl h hn hs, fun _ _ => rfl⟩
  | seeding h1 h2 => exact ⟨b0.between hs h1 h2, fun _ _ => rfl⟩
  | seeded => exact ⟨b0, fun i hi => u0 i (fun e => hi (e ▸ .refl))⟩
  | @rule seen funcs pre post gxs t gr w1 g g' hd hsp hf hgr hru h1 h2 =>
    obtain ⟨w1', e1, b1, u1, _, hrt, hc⟩ := visits_prefix A h hn hs hy hb hd hsp
    rw [hf] at e1; cases e1
    have htl := Nat.lt_of_le_of_lt (hrt.le h hy) hy
    obtain ⟨_, q2, q3⟩ := b1.gs t gr hgr
    obtain ⟨ys, g1, e, r⟩ := rule_ok A b1.wf b1.nn (Nat.lt_of_lt_of_le htl b1.ext.length) q2 (by rwa [b1.ext.ctx htl]) q3 (GradNode.ext b1.ext h htl (hb t hrt))
    rw [hru] at e; cases e
    have hb1 : BStep w1 { w1 with g := g } := ⟨r.ext, r.wf, r.nn, fun i k hk => by
      obtain ⟨a, b, c⟩ := b1.gs i k hk
      exact ⟨Nat.lt_of_lt_of_le a r.ext.length, Nat.lt_of_lt_of_le b r.ext.length, by show g.shape k = g.shape i; rw [r.ext.shape a, r.ext.shape b, c]⟩, fun _ h => h, rfl⟩
    exact ⟨b1.trans (hb1.between b1.gs h1 h2), u1⟩
  | @adding seen funcs pre post gxs t gr w1 w2 w3 g g' done rest p hd hsp hf hgr hru hz hdn hac h1 h2 =>
    obtain ⟨w1', e1, b1, u1, _, hrt, hc⟩ := visits_prefix A h hn hs hy hb hd hsp
    rw [hf] at e1; cases e1
    have htl := Nat.lt_of_le_of_lt (hrt.le h hy) hy
    have htl1 := Nat.lt_of_lt_of_le htl b1.ext.length
    obtain ⟨_, q2, q3⟩ := b1.gs t gr hgr
    obtain ⟨ys, g1, e, r⟩ := rule_ok A b1.wf b1.nn htl1 q2 (by rwa [b1.ext.ctx htl]) q3 (GradNode.ext b1.ext h htl (hb t hrt))
    rw [hru] at e; cases e
    have hb1 : BStep w1 { w1 with g := g } := ⟨r.ext, r.wf, r.nn, fun i k hk => by
      obtain ⟨a, b, c⟩ := b1.gs i k hk
      exact ⟨Nat.lt_of_lt_of_le a r.ext.length, Nat.lt_of_lt_of_le b r.ext.length, by show g.shape k = g.shape i; rw [r.ext.shape a, r.ext.shape b, c]⟩, fun _ h => h, rfl⟩
    have hin := b1.wf.inputs_lt htl1
    obtain ⟨w2', w3', e2, b2, u2, e3, b3⟩ := accums_prefix A (g := w1.g) (w := { w1 with g := g }) r.wf r.nn hb1.gs r.ext (fun x hx => Nat.lt_trans (hin x hx) htl1) r.grads hz
    rw [hdn] at e2; cases e2
    rw [hac] at e3; cases e3
    refine ⟨(b1.trans (hb1.trans b2)).trans (b3.between b2.gs h1 h2), fun i hi => ?_⟩
    show w2.grad i = w.grad i
    rw [u2 i (fun hx => hi (.step hrt (by rwa [b1.ext.ctx htl] at hx)))]
    exact u1 i hi

theorem accums_rest (A : Scalar V) {g : Graph V} {xs ys : List Nat} {Ts : List (Tensor V)} {w : World V} (h : WF w.g) (hn : NN w.g) (hs : GradShapes w) (he : Ext g w.g) (hx : ∀ x ∈ xs, x < g.length)
    (hg : Grads A g w.g xs ys Ts) (rest : List (Nat × Nat)) : ∀ (done : List (Nat × Nat)) {w2 w3 : World V}, xs.zip ys = done ++ rest → done.foldlM accum w = .ok w2 → rest.foldlM accum w2 = .ok w3 →
    Ext w2.g w3.g := by
  induction rest with
  | nil => intro done w2 w3 _ _ h3; cases h3; exact .refl _
  | cons p rest ih =>
    intro done w2 w3 hz h2 h3
    obtain ⟨a, c, e1, _, _, e2, b2⟩ := accums_prefix A h hn hs he hx hg hz
    rw [h2] at e1; cases e1
    rw [List.foldlM_cons] at h3
    obtain ⟨v, f1, f2⟩ := except_bind_ok h3
    rw [e2] at f1; cases f1
    refine b2.ext.trans (ih (done ++ [p]) (by rw [hz]; simp) ?_ f2)
    rw [List.foldlM_append, h2]
    show List.foldlM accum w2 [p] = _
    rw [List.foldlM_cons, e2]; rfl

theorem visits_rest (A : Scalar V) {w : World V} (h : WF w.g) (hn : NN w.g) (hs : GradShapes w) {y : Nat} (hy : y < w.g.length) (hb : BackwardOK w.g y) {seen funcs : List Nat}
    (hd : dfs (seed A w y).g (y + 1) y ([], []) = .ok (seen, funcs)) (post : List Nat) : ∀ (pre : List Nat) {w1 w2 : World V}, funcs.reverse = pre ++ post →
    pre.foldlM (visit A) (seed A w y) = .ok w1 → post.foldlM (visit A) w1 = .ok w2 → Ext w1.g w2.g := by
  induction post with
  | nil => intro pre w1 w2 _ _ h2; cases h2; exact .refl _
  | cons t post ih =>
    intro pre w1 w2 hsp h1 h2
    obtain ⟨w1', e1, b1, _, hg, hrt, hc⟩ := visits_prefix A h hn hs hy hb hd hsp
    rw [h1] at e1; cases e1
    obtain ⟨gr, hgr⟩ := Option.isSome_iff_exists.1 hg
    have htl := Nat.lt_of_le_of_lt (hrt.le h hy) hy
    obtain ⟨v, ev, bv, _⟩ := visit_ok A b1.wf b1.nn b1.gs (Nat.lt_of_lt_of_le htl b1.ext.length) (by rwa [b1.ext.ctx htl]) (GradNode.ext b1.ext h htl (hb t hrt)) hgr
    rw [List.foldlM_cons, ev] at h2
    refine bv.ext.trans (ih (pre ++ [t]) (by rw [hsp]; simp) ?_ h2)
    rw [List.foldlM_append, h1]
    show List.foldlM (visit A) w1 [t] = _
    rw [List.foldlM_cons, ev]; rfl

/-- The arrays that exist when `backward` is left are the first ones of those that exist when it is not. -/
theorem Bwd.Stopped.within (A : Scalar V) {w w' w'' : World V} (h : WF w.g) (hn : NN w.g) (hs : GradShapes w) {y : Nat} (hy : y < w.g.length) (hb : BackwardOK w.g y) (hst : Stopped A w y w')
    (hw : backward A w y = .ok w'') : w'.g <+: w''.g := by
  obtain ⟨b0, s0, u0, v0⟩ := seed_ok A h hn hs hy
  unfold backward at hw
  obtain ⟨⟨seen0, funcs0⟩, hd0, hw⟩ := except_bind_ok hw
  dsimp only at hw
  have hall : Ext (seed A w y).g w''.g := visits_rest A h hn hs hy hb hd0 _ [] rfl rfl hw
  cases hst with
  | start => exact b0.ext.trans hall
  | seeding h1 h2 => exact h2.trans hall
  | seeded => exact hall
  | @rule seen funcs pre post gxs t gr w1 g g' hd hsp hf hgr hru h1 h2 =>
    rw [hd] at hd0; cases hd0
    rw [hsp, List.foldlM_append, hf] at hw
    replace hw : (t :: post).foldlM (visit A) w1 = .ok w'' := hw
    rw [List.foldlM_cons] at hw
    obtain ⟨v, ev, hw⟩ := except_bind_ok hw
    have hv : Ext v.g w''.g := visits_rest A h hn hs hy hb hd post (pre ++ [t]) (by rw [hsp]; simp) (by
      rw [List.foldlM_append, hf]
      show List.foldlM (visit A) w1 [t] = _
      rw [List.foldlM_cons, ev]; rfl) hw
    obtain ⟨w1', e1, b1, u1, _, hrt, hc⟩ := visits_prefix A h hn hs hy hb hd hsp
    rw [hf] at e1; cases e1
    have htl := Nat.lt_of_le_of_lt (hrt.le h hy) hy
    have htl1 := Nat.lt_of_lt_of_le htl b1.ext.length
    obtain ⟨_, q2, q3⟩ := b1.gs t gr hgr
    obtain ⟨ys, g1, e, r⟩ := rule_ok A b1.wf b1.nn htl1 q2 (by rwa [b1.ext.ctx htl]) q3 (GradNode.ext b1.ext h htl (hb t hrt))
    rw [hru] at e; cases e
    have hb1 : GradShapes { w1 with g := g } := fun i k hk => by
      obtain ⟨a, b, c⟩ := b1.gs i k hk
      exact ⟨Nat.lt_of_lt_of_le a r.ext.length, Nat.lt_of_lt_of_le b r.ext.length, by show g.shape k = g.shape i; rw [r.ext.shape a, r.ext.shape b, c]⟩
    have hin := b1.wf.inputs_lt htl1
    unfold visit at ev
    rw [hgr] at ev
    obtain ⟨q, hq, ev⟩ := except_bind_ok ev
    rw [hru] at hq; cases hq
    have hg : Ext g v.g := accums_rest A (g := w1.g) (w := { w1 with g := g }) r.wf r.nn hb1 r.ext (fun x hx => Nat.lt_trans (hin x hx) htl1) r.grads _ [] rfl rfl ev
    exact h2.trans (hg.trans hv)
  | @adding seen funcs pre post gxs t gr w1 w2 w3 g g' done rest p hd hsp hf hgr hru hz hdn hac h1 h2 =>
    rw [hd] at hd0; cases hd0
    rw [hsp, List.foldlM_append, hf] at hw
    replace hw : (t :: post).foldlM (visit A) w1 = .ok w'' := hw
    rw [List.foldlM_cons] at hw
    obtain ⟨v, ev, hw⟩ := except_bind_ok hw
    have hv : Ext v.g w''.g := visits_rest A h hn hs hy hb hd post (pre ++ [t]) (by rw [hsp]; simp) (by
      rw [List.foldlM_append, hf]
      show List.foldlM (visit A) w1 [t] = _
      rw [List.foldlM_cons, ev]; rfl) hw
    obtain ⟨w1', e1, b1, u1, _, hrt, hc⟩ := visits_prefix A h hn hs hy hb hd hsp
    rw [hf] at e1; cases e1
    have htl := Nat.lt_of_le_of_lt (hrt.le h hy) hy
    have htl1 := Nat.lt_of_lt_of_le htl b1.ext.length
    obtain ⟨_, q2, q3⟩ := b1.gs t gr hgr
    obtain ⟨ys, g1, e, r⟩ := rule_ok A b1.wf b1.nn htl1 q2 (by rwa [b1.ext.ctx htl]) q3 (GradNode.ext b1.ext h htl (hb t hrt))
    rw [hru] at e; cases e
    have hb1 : GradShapes { w1 with g := g } := fun i k hk => by
      obtain ⟨a, b, c⟩ := b1.gs i k hk
      exact ⟨Nat.lt_of_lt_of_le a r.ext.length, Nat.lt_of_lt_of_le b r.ext.length, by show g.shape k = g.shape i; rw [r.ext.shape a, r.ext.shape b, c]⟩
    have hin := b1.wf.inputs_lt htl1
    unfold visit at ev
    rw [hgr] at ev
    obtain ⟨q, hq, ev⟩ := except_bind_ok ev
    rw [hru] at hq; cases hq
    dsimp only at ev
    rw [hz, List.foldlM_append, hdn] at ev
    replace ev : (p :: rest).foldlM accum w2 = .ok v := ev
    rw [List.foldlM_cons, hac] at ev
    have hg : Ext w3.g v.g := accums_rest A (g := w1.g) (w := { w1 with g := g }) r.wf r.nn hb1 r.ext (fun x hx => Nat.lt_trans (hin x hx) htl1) r.grads rest (done ++ [p]) (by rw [hz]; simp) (by
      rw [List.foldlM_append, hdn]
      show List.foldlM accum w2 [p] = _
      rw [List.foldlM_cons, hac]; rfl) ev
    exact h2.trans (hg.trans hv)

end Whale
