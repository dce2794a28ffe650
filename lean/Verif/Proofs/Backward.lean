import Verif.Proofs.Vjp5
import Verif.Proofs.Dfs
import Verif.Proofs.Materialize
/-
`backward`: it succeeds, and every gradient is the sum of the contributions of all uses.
-/
namespace Whale
open Bwd
variable {V : Type}

theorem OptEq.refl (o : Option (Tensor V)) : OptEq o o := by cases o <;> simp [OptEq, Tensor.Equiv.refl]
theorem OptEq.of_eq {o p : Option (Tensor V)} (h : o = p) : OptEq o p := h ▸ .refl o
theorem OptEq.trans {o p q : Option (Tensor V)} (h : OptEq o p) (k : OptEq p q) : OptEq o q := by
  cases o <;> cases p <;> cases q <;> simp_all [OptEq]
  exact h.trans k
theorem OptEq.symm {o p : Option (Tensor V)} (h : OptEq o p) : OptEq p o := by
  cases o <;> cases p <;> simp_all [OptEq]
  exact h.symm

/-- `o` has shape `s` if present. -/
def OptShape (s : List Int) (o : Option (Tensor V)) : Prop := ∀ T, o = some T → T.shape = s

theorem OptEq.shape {o p : Option (Tensor V)} (h : OptEq o p) {s : List Int} (hs : OptShape s o) : OptShape s p := by
  intro T hT
  subst hT
  cases o with
  | none => simp [OptEq] at h
  | some U => rw [← h.1]; exact hs U rfl

theorem OptEq.addGrad (A : Scalar V) {o p : Option (Tensor V)} {T U : Tensor V} (h : OptEq o p) (k : T.Equiv U) {s : List Int} (ho : OptShape s o) (hT : T.shape = s) :
    OptEq (addGrad A o T) (addGrad A p U) := by
  cases o <;> cases p <;> simp_all [OptEq, Whale.addGrad]
  exact Tensor.Equiv.zip _ h k (by rw [ho _ rfl, hT])

theorem addGrad_shape (A : Scalar V) {o : Option (Tensor V)} {T : Tensor V} {s : List Int} (ho : OptShape s o) (hT : T.shape = s) :
    OptShape s (addGrad A o T) := by
  intro U hU
  cases o with
  | none => simp [addGrad] at hU; rw [← hU, hT]
  | some O => simp [addGrad] at hU; rw [← hU]; exact ho O rfl

theorem foldl_addGrad_shape (A : Scalar V) {s : List Int} (l : List (Tensor V)) (hl : ∀ T ∈ l, T.shape = s) {o : Option (Tensor V)} (ho : OptShape s o) :
    OptShape s (l.foldl (addGrad A) o) := by
  induction l generalizing o with
  | nil => exact ho
  | cons T l ih => exact ih (fun U hU => hl U (List.mem_cons_of_mem _ hU)) (addGrad_shape A ho (hl T (by simp)))

theorem foldl_addGrad_congr (A : Scalar V) {s : List Int} (l : List (Tensor V)) (hl : ∀ T ∈ l, T.shape = s) {o p : Option (Tensor V)} (h : OptEq o p) (ho : OptShape s o) :
    OptEq (l.foldl (addGrad A) o) (l.foldl (addGrad A) p) := by
  induction l generalizing o p with
  | nil => exact h
  | cons T l ih =>
    exact ih (fun U hU => hl U (List.mem_cons_of_mem _ hU)) (h.addGrad A (.refl T) ho (hl T (by simp))) (addGrad_shape A ho (hl T (by simp)))

/-- What `backward` may change: it adds arrays and gradients. -/
structure BStep (w w' : World V) : Prop where
  ext : Ext w.g w'.g
  wf : WF w'.g
  nn : NN w'.g
  gs : GradShapes w'
  mono : ∀ i, (w.grad i).isSome → (w'.grad i).isSome
  rest : w' = { w with g := w'.g, grad := w'.grad }

theorem BStep.trans {w w' w'' : World V} (h : BStep w w') (k : BStep w' w'') : BStep w w'' :=
  ⟨h.ext.trans k.ext, k.wf, k.nn, k.gs, fun i hi => k.mono i (h.mono i hi), by rw [k.rest, h.rest]⟩

theorem BStep.refl {w : World V} (h : WF w.g) (hn : NN w.g) (hs : GradShapes w) : BStep w w :=
  ⟨Ext.refl _, h, hn, hs, fun _ h => h, rfl⟩

theorem gradT_shape (A : Scalar V) {w : World V} (h : WF w.g) (hs : GradShapes w) (i : Nat) : OptShape (w.g.shape i) (gradT A w i) := by
  intro T hT
  unfold gradT at hT
  obtain ⟨k, hk, rfl⟩ := Option.map_eq_some_iff.1 hT
  obtain ⟨_, h2, h3⟩ := hs i k hk
  rw [den_shape A h h2, h3]

theorem accum_ok (A : Scalar V) {w : World V} (h : WF w.g) (hn : NN w.g) (hs : GradShapes w) {x y : Nat} (hx : x < w.g.length) (hy : y < w.g.length)
    (hxy : w.g.shape y = w.g.shape x) :
    ∃ w', accum w (x, y) = .ok w' ∧ BStep w w' ∧ (w'.grad x).isSome ∧ (∀ i, i ≠ x → w'.grad i = w.grad i) ∧
      ∀ i, gradT A w' i = if i = x then addGrad A (gradT A w x) (den A w.g y) else gradT A w i := by
  unfold accum
  cases hg : w.grad x with
  | none =>
    simp only [hg]
    refine ⟨_, rfl, ⟨Ext.refl _, h, hn, ?_, ?_, rfl⟩, ?_, fun i hi => by simp [Mat.upd, hi], ?_⟩
    · intro i k hk
      simp only [Mat.upd] at hk
      split at hk
      · rename_i e; subst e; cases hk; exact ⟨hx, hy, hxy⟩
      · exact hs i k hk
    · intro i hi; simp only [Mat.upd]; split <;> simp_all
    · simp [Mat.upd]
    · intro i
      by_cases e : i = x
      · subst e; simp [gradT, Mat.upd, addGrad, hg]
      · simp [gradT, Mat.upd, e]
  | some o =>
    simp only [hg]
    obtain ⟨_, ho, hos⟩ := hs x o hg
    obtain ⟨r, g', e, m, d⟩ := binary_same h hn ho hy (op := .Add) (by decide) (by rw [hos, hxy])
    simp only [e, bind, Except.bind, pure, Except.pure]
    refine ⟨_, rfl, ⟨m.ext, m.wf, m.nn, ?_, ?_, rfl⟩, ?_, fun i hi => by simp [Mat.upd, hi], ?_⟩
    · intro i k hk
      simp only [Mat.upd] at hk
      split at hk
      · rename_i e; subst e; cases hk; exact ⟨(m.old hx).1, m.lt, by rw [m.shape, hos, (m.old hx).2.1]⟩
      · obtain ⟨h1, h2, h3⟩ := hs i k hk
        exact ⟨(m.old h1).1, (m.old h2).1, by rw [(m.old h1).2.1, (m.old h2).2.1, h3]⟩
    · intro i hi; simp only [Mat.upd]; split <;> simp_all
    · simp [Mat.upd]
    · intro i
      by_cases e : i = x
      · subst e; simp [gradT, Mat.upd, addGrad, hg, d A]
      · simp only [gradT, Mat.upd, e, if_false]
        cases hi : w.grad i with
        | none => rfl
        | some k =>
          obtain ⟨_, h2, _⟩ := hs i k hi
          simp [(m.old h2).2.2 A]

/-- Contributions along a list of (input, gradient tensor) pairs. -/
def pick (i : Nat) (xs : List Nat) (Ts : List (Tensor V)) : List (Tensor V) := ((xs.zip Ts).filter (fun p => p.1 = i)).map (·.2)

theorem Grads.ext {A : Scalar V} {g g1 g2 : Graph V} (he : Ext g1 g2) (hw : WF g2) {xs ys : List Nat} {Ts : List (Tensor V)} (h : Grads A g g1 xs ys Ts) : Grads A g g2 xs ys Ts := by
  induction xs generalizing ys Ts with
  | nil => cases ys <;> cases Ts <;> simp_all [Grads]
  | cons x xs ih => cases ys with
    | nil => simp [Grads] at h
    | cons y ys => cases Ts with
      | nil => simp [Grads] at h
      | cons T Ts =>
        obtain ⟨⟨h1, h2, h3⟩, h4⟩ := h
        exact ⟨⟨Nat.lt_of_lt_of_le h1 he.length, by rw [he.shape h1, h2], by rw [den_ext A he hw h1]; exact h3⟩, ih h4⟩

theorem Grads.pick_shape {A : Scalar V} {g g1 : Graph V} (hw : WF g1) {xs ys : List Nat} {Ts : List (Tensor V)} (h : Grads A g g1 xs ys Ts) {i : Nat} :
    ∀ U ∈ pick i xs Ts, U.shape = g.shape i := by
  intro U hU
  simp only [pick, List.mem_map, List.mem_filter, decide_eq_true_eq, Prod.exists] at hU
  obtain ⟨z, U', ⟨hm, rfl⟩, rfl⟩ := hU
  induction xs generalizing ys Ts with
  | nil => simp at hm
  | cons a xs ih => cases ys with
    | nil => simp [Grads] at h
    | cons b ys => cases Ts with
      | nil => simp at hm
      | cons U Ts =>
        obtain ⟨⟨q1, q2, q3⟩, q4⟩ := h
        simp only [List.zip_cons_cons, List.mem_cons] at hm
        rcases hm with hm | hm
        · cases hm; rw [← q3.1, den_shape A hw q1, q2]
        · exact ih q4 hm

theorem accums_ok (A : Scalar V) {g : Graph V} {xs ys : List Nat} {Ts : List (Tensor V)} : ∀ {w : World V}, WF w.g → NN w.g → GradShapes w → Ext g w.g →
    (∀ x ∈ xs, x < g.length) → Grads A g w.g xs ys Ts →
    ∃ w', (xs.zip ys).foldlM accum w = .ok w' ∧ BStep w w' ∧ (∀ x ∈ xs, (w'.grad x).isSome) ∧ (∀ i, i ∉ xs → w'.grad i = w.grad i) ∧
      ∀ i, OptEq (gradT A w' i) ((pick i xs Ts).foldl (addGrad A) (gradT A w i)) := by
  induction xs generalizing ys Ts with
  | nil =>
    intro w h hn hs he hx hg
    exact ⟨w, rfl, .refl h hn hs, by simp, fun _ _ => rfl, fun i => by simp [pick, OptEq.refl]⟩
  | cons x xs ih =>
    intro w h hn hs he hx hg
    cases ys with
    | nil => simp [Grads] at hg
    | cons y ys => cases Ts with
      | nil => simp [Grads] at hg
      | cons T Ts =>
        obtain ⟨⟨h1, h2, h3⟩, h4⟩ := hg
        have hxg := hx x (by simp)
        have hxw : x < w.g.length := Nat.lt_of_lt_of_le hxg he.length
        obtain ⟨w1, e1, b1, s1, u1, v1⟩ := accum_ok A h hn hs hxw h1 (by rw [h2, he.shape hxg])
        obtain ⟨w2, e2, b2, s2, u2, v2⟩ := ih b1.wf b1.nn b1.gs (he.trans b1.ext) (fun z hz => hx z (List.mem_cons_of_mem _ hz)) (h4.ext b1.ext b1.wf)
        refine ⟨w2, ?_, b1.trans b2, fun z hz => ?_, fun i hi => ?_, fun i => ?_⟩
        · simp only [List.zip_cons_cons, List.foldlM_cons, e1, bind, Except.bind]; exact e2
        · rcases List.mem_cons.1 hz with rfl | hz
          · exact b2.mono _ s1
          · exact s2 z hz
        · simp only [List.mem_cons, not_or] at hi
          rw [u2 i hi.2, u1 i hi.1]
        · refine (v2 i).trans ?_
          have hshapes : ∀ U ∈ pick i xs Ts, U.shape = g.shape i := h4.pick_shape h
          by_cases hix : i = x
          · subst hix
            have : pick i (i :: xs) (T :: Ts) = T :: pick i xs Ts := by simp [pick]
            rw [this, List.foldl_cons, v1 i, if_pos rfl]
            have hsi := gradT_shape A h hs i
            rw [he.shape hxg] at hsi
            have hsy : (den A w.g y).shape = g.shape i := by rw [den_shape A h h1, h2]
            exact foldl_addGrad_congr A _ hshapes ((OptEq.refl _).addGrad A h3 hsi hsy) (addGrad_shape A hsi hsy)
          · have : pick i (x :: xs) (T :: Ts) = pick i xs Ts := by simp [pick, Ne.symm hix]
            rw [this, v1 i, if_neg hix]
            exact .refl _

theorem nodeVjp_ext (A : Scalar V) {g g' : Graph V} (he : Ext g g') (hw : WF g') {t : Nat} (ht : t < g.length) (G : Tensor V) : nodeVjp A g' t G = nodeVjp A g t G := by
  have hlt := (WF.of_ext he hw).inputs_lt ht
  unfold nodeVjp
  rw [he.ctx ht]
  cases hc : g.ctx t <;> simp only [hc, Ctx.inputs, List.mem_cons, List.not_mem_nil, or_false, forall_eq, forall_eq_or_imp] at hlt ⊢
  case unary op x => rw [den_ext A he hw ht, den_ext A he hw (show x < g.length by omega)]
  case binary op l r => rw [den_ext A he hw (show l < g.length by omega), den_ext A he hw (show r < g.length by omega)]
  all_goals rw [he.shape (by omega)]

theorem contribs_ext (A : Scalar V) {g g' : Graph V} (he : Ext g g') (hw : WF g') {t : Nat} (ht : t < g.length) (i : Nat) (G : Tensor V) : contribs A g' i t G = contribs A g i t G := by
  unfold contribs; rw [nodeVjp_ext A he hw ht, he.ctx ht]

theorem GradNode.ext {g g' : Graph V} (he : Ext g g') (hw : WF g) {t : Nat} (ht : t < g.length) (h : GradNode g t) : GradNode g' t := by
  have hlt := hw.inputs_lt ht
  unfold GradNode at h ⊢
  rw [he.ctx ht]
  cases hc : g.ctx t <;> simp only [hc, Ctx.inputs, List.mem_cons, List.not_mem_nil, or_false, forall_eq, forall_eq_or_imp] at hlt h ⊢
  case broadcast x s => rw [he.shape (by omega)]; exact h
  all_goals exact h

theorem visit_ok (A : Scalar V) {w : World V} (h : WF w.g) (hn : NN w.g) (hs : GradShapes w) {t gr : Nat} (ht : t < w.g.length) (hc : (w.g.ctx t).inputs ≠ [])
    (hgn : GradNode w.g t) (hgr : w.grad t = some gr) :
    ∃ w', visit A w t = .ok w' ∧ BStep w w' ∧ (∀ x ∈ (w.g.ctx t).inputs, (w'.grad x).isSome) ∧
      (∀ i, i ∉ (w.g.ctx t).inputs → w'.grad i = w.grad i) ∧ (∀ i, ∀ U ∈ contribs A w.g i t (den A w.g gr), U.shape = w.g.shape i) ∧
      ∀ i, OptEq (gradT A w' i) ((contribs A w.g i t (den A w.g gr)).foldl (addGrad A) (gradT A w i)) := by
  obtain ⟨_, h2, h3⟩ := hs t gr hgr
  obtain ⟨ys, g', e, r⟩ := rule_ok A h hn ht h2 hc h3 hgn
  have hgs : GradShapes { w with g := g' } := by
    intro i k hk
    obtain ⟨a, b, c⟩ := hs i k hk
    exact ⟨Nat.lt_of_lt_of_le a r.ext.length, Nat.lt_of_lt_of_le b r.ext.length, by
      show g'.shape k = g'.shape i
      rw [r.ext.shape a, r.ext.shape b, c]⟩
  have hin := h.inputs_lt ht
  obtain ⟨w', e', b, s, u, v⟩ := accums_ok A (g := w.g) (w := { w with g := g' }) r.wf r.nn hgs r.ext (fun x hx => by have := hin x hx; omega) r.grads
  refine ⟨w', ?_, ⟨r.ext.trans b.ext, b.wf, b.nn, b.gs, b.mono, by rw [b.rest]⟩, s, u, fun i => r.grads.pick_shape r.wf, fun i => ?_⟩
  · simp only [visit, hgr, e, bind, Except.bind]; exact e'
  · refine (v i).trans (.of_eq ?_)
    have : gradT A { w with g := g' } i = gradT A w i := by
      simp only [gradT]
      cases hi : w.grad i with
      | none => rfl
      | some k => simp [den_ext A r.ext r.wf (hs i k hi).2.1]
    rw [this]; rfl

theorem contribs_none (A : Scalar V) {g : Graph V} {i t : Nat} (G : Tensor V) (h : i ∉ (g.ctx t).inputs) : contribs A g i t G = [] := by
  unfold contribs
  rw [List.map_eq_nil_iff, List.filter_eq_nil_iff]
  intro p hp
  simp only [decide_eq_true_eq]
  intro e; subst e
  exact h (List.of_mem_zip hp).1

theorem visits_ok (A : Scalar V) (g : Graph V) (Γ0 : Nat → Option (Tensor V)) (rest : List Nat) : ∀ (done : List Nat) {w : World V}, WF w.g → NN w.g → GradShapes w → Ext g w.g → WF g →
    (∀ t ∈ done ++ rest, t < g.length ∧ (g.ctx t).inputs ≠ [] ∧ GradNode g t) → (done ++ rest).Nodup →
    (∀ l1 f l2, done ++ rest = l1 ++ f :: l2 → ∀ x ∈ (g.ctx f).inputs, x ∉ l1 ∧ x ≠ f) →
    (∀ l1 f l2, rest = l1 ++ f :: l2 → (w.grad f).isSome ∨ ∃ c ∈ l1, f ∈ (g.ctx c).inputs) →
    (∀ i < g.length, OptEq (gradT A w i) ((done.flatMap (contribsW A g (gradT A w) i)).foldl (addGrad A) (Γ0 i))) →
    (∀ t ∈ done, (w.grad t).isSome ∧ ∀ x ∈ (g.ctx t).inputs, (w.grad x).isSome) →
    ∃ w', rest.foldlM (visit A) w = .ok w' ∧ BStep w w' ∧ (∀ i, (∀ t ∈ rest, i ∉ (g.ctx t).inputs) → w'.grad i = w.grad i) ∧
      (∀ i < g.length, OptEq (gradT A w' i) (((done ++ rest).flatMap (contribsW A g (gradT A w') i)).foldl (addGrad A) (Γ0 i))) ∧
      (∀ t ∈ done ++ rest, (w'.grad t).isSome ∧ ∀ x ∈ (g.ctx t).inputs, (w'.grad x).isSome) := by
  induction rest with
  | nil =>
    intro done w h hn hs he hwg hall hnd hord hav hcl hsome
    exact ⟨w, rfl, .refl h hn hs, fun _ _ => rfl, by simpa using hcl, by simpa using hsome⟩
  | cons t rest ih =>
    intro done w h hn hs he hwg hall hnd hord hav hcl hsome
    obtain ⟨ht, hc, hgn⟩ := hall t (by simp)
    have htw : t < w.g.length := Nat.lt_of_lt_of_le ht he.length
    have hgr : ∃ gr, w.grad t = some gr := by
      rcases hav [] t rest rfl with hh | ⟨c, hc, _⟩
      · exact Option.isSome_iff_exists.1 hh
      · simp at hc
    obtain ⟨gr, hgr⟩ := hgr
    obtain ⟨w1, e1, b1, s1, u1, p1, v1⟩ := visit_ok A h hn hs htw (by rw [he.ctx ht]; exact hc) (hgn.ext he hwg ht) hgr
    rw [he.ctx ht] at s1 u1
    have he1 := he.trans b1.ext
    have hmem : ∀ {f}, f ∈ done ++ [t] → f ∈ done ++ t :: rest := by
      intro f hf
      rcases List.mem_append.1 hf with hf | hf
      · exact List.mem_append_left _ hf
      · simp at hf; subst hf; simp
    -- gradients of finished arrays do not change
    have hstab : ∀ f ∈ done ++ [t], gradT A w1 f = gradT A w f := by
      intro f hf
      have hfn : f ∉ (g.ctx t).inputs := fun hin => by
        have := hord done t rest rfl f hin
        rcases List.mem_append.1 hf with hf | hf
        · exact this.1 hf
        · simp at hf; exact this.2 hf
      simp only [gradT, u1 f hfn]
      cases hi : w.grad f with
      | none => rfl
      | some k => simp [den_ext A b1.ext b1.wf (hs f k hi).2.1]
    have hassoc : (done ++ [t]) ++ rest = done ++ t :: rest := by simp
    obtain ⟨w2, e2, b2, u2, v2, s2⟩ := ih (done ++ [t]) b1.wf b1.nn b1.gs he1 hwg (by rw [hassoc]; exact hall) (by rw [hassoc]; exact hnd)
      (by rw [hassoc]; exact hord)
      (by
        intro l1 f l2 e
        rcases hav (t :: l1) f l2 (by rw [e]; rfl) with hh | ⟨c, hc, hf⟩
        · exact .inl (b1.mono f hh)
        · rcases List.mem_cons.1 hc with rfl | hc
          · exact .inl (s1 f hf)
          · exact .inr ⟨c, hc, hf⟩)
      (by
        intro i hi
        refine (v1 i).trans ?_
        have hG : gradT A w t = some (den A w.g gr) := by simp [gradT, hgr]
        have hfm : (done ++ [t]).flatMap (contribsW A g (gradT A w1) i) =
            done.flatMap (contribsW A g (gradT A w) i) ++ contribs A w.g i t (den A w.g gr) := by
          rw [List.flatMap_append]
          congr 1
          · simp only [List.flatMap]
            congr 1
            apply List.map_congr_left
            intro f hf
            simp only [contribsW, hstab f (List.mem_append_left _ hf)]
          · simp only [List.flatMap_cons, List.flatMap_nil, List.append_nil, contribsW, hstab t (by simp), hG]
            rw [contribs_ext A he h ht]
        rw [hfm, List.foldl_append]
        have hsi := gradT_shape A h hs i
        exact foldl_addGrad_congr A _ (p1 i) (hcl i hi) hsi)
      (by
        intro f hf
        rcases List.mem_append.1 hf with hf | hf
        · exact ⟨b1.mono f (hsome f hf).1, fun x hx => b1.mono x ((hsome f hf).2 x hx)⟩
        · simp at hf; subst hf
          exact ⟨b1.mono f (by rw [hgr]; rfl), s1⟩)
    rw [hassoc] at v2 s2
    exact ⟨w2, by simp only [List.foldlM_cons, e1, bind, Except.bind]; exact e2, b1.trans b2, fun i hi => by
      rw [u2 i (fun t' ht' => hi t' (List.mem_cons_of_mem _ ht')), u1 i (hi t (by simp))], v2, s2⟩

/-! ### the whole of `backward` -/

theorem ofFlat_replicate (d : V) {s : List Int} (v : V) : (Tensor.ofFlat d s (List.replicate (prod s).toNat v)).Equiv ⟨s, fun _ => v⟩ := by
  refine ⟨rfl, fun idx hi => ?_⟩
  have hb := ravel_bounds (s := s) hi
  simp only [Tensor.ofFlat]
  rw [List.getD_eq_getElem?_getD, List.getElem?_replicate, if_pos (by omega)]; rfl

theorem NonNeg.toNat_prod {s : List Int} (h : NonNeg s) : (((prod s).toNat : Nat) : Int) = prod s := by
  have := h.prod_nonneg; omega

theorem seed_ok (A : Scalar V) {w : World V} (h : WF w.g) (hn : NN w.g) (hs : GradShapes w) {y : Nat} (hy : y < w.g.length) :
    BStep w (seed A w y) ∧ ((seed A w y).grad y).isSome ∧ (∀ i, i ≠ y → (seed A w y).grad i = w.grad i) ∧ ∀ i, OptEq (gradT A (seed A w y) i) (seedT A w y i) := by
  unfold seed
  cases hg : w.grad y with
  | some k =>
    simp only [hg]
    exact ⟨.refl h hn hs, by simp [hg], fun _ _ => trivial, fun i => by simp [seedT, hg, OptEq.refl]⟩
  | none =>
    simp only [hg]
    have hnn := (hn y hy).1
    obtain ⟨m, d⟩ := const_s A h hn (s := w.g.shape y) (l := List.replicate (prod (w.g.shape y)).toNat (oneOf A (w.g.dtype y))) hnn (by
      rw [List.length_replicate]; exact hnn.toNat_prod)
    refine ⟨⟨m.ext, m.wf, m.nn, ?_, ?_, rfl⟩, ?_, ?_, ?_⟩
    · intro i k hk
      simp only [Mat.upd] at hk
      split at hk
      · rename_i e; subst e; cases hk
        exact ⟨(m.old hy).1, m.lt, m.shape.trans (m.old hy).2.1.symm⟩
      · obtain ⟨h1, h2, h3⟩ := hs i k hk
        exact ⟨(m.old h1).1, (m.old h2).1, ((m.old h2).2.1.trans h3).trans (m.old h1).2.1.symm⟩
    · intro i hi; simp only [Mat.upd]; split <;> simp_all
    · simp [Mat.upd]
    · intro i hi; simp [Mat.upd, hi]
    · intro i
      by_cases e : i = y
      · subst e
        simp only [gradT, Mat.upd, if_true, seedT, hg, and_self, Option.map_some, OptEq]
        refine Tensor.Equiv.trans (.of_eq (d A)) (ofFlat_replicate _ _)
      · simp only [gradT, Mat.upd, e, if_false, seedT, false_and]
        cases hi : w.grad i with
        | none => simp [OptEq]
        | some k =>
          exact .of_eq (by simp only [Option.map_some, Option.some.injEq]; exact (m.old (hs i k hi).2.1).2.2 A)

theorem Reach.ext {g g' : Graph V} (he : Ext g g') (hw : WF g) {a i : Nat} (ha : a < g.length) : Reach g' a i ↔ Reach g a i := by
  constructor
  · intro r
    induction r with
    | refl => exact .refl
    | step _ hx ih => exact .step ih (by rwa [he.ctx (Nat.lt_of_le_of_lt (ih.le hw ha) ha)] at hx)
  · intro r
    induction r with
    | refl => exact .refl
    | step hr hx ih => exact .step ih (by rwa [he.ctx (Nat.lt_of_le_of_lt (hr.le hw ha) ha)])

theorem dfs_ext {g g' : Graph V} (he : Ext g g') (hw : WF g) : ∀ fuel t st, t < g.length → dfs g' fuel t st = dfs g fuel t st := by
  intro fuel
  induction fuel with
  | zero => intros; rfl
  | succ fuel ih =>
    intro t st ht
    have hfold : ∀ (xs : List Nat) st, (∀ x ∈ xs, x < g.length) → xs.foldlM (fun st i => dfs g' fuel i st) st = xs.foldlM (fun st i => dfs g fuel i st) st := by
      intro xs
      induction xs with
      | nil => intros; rfl
      | cons x xs ihx =>
        intro st hx
        simp only [List.foldlM_cons]
        rw [ih x st (hx x (by simp))]
        congr 1
        funext st'
        exact ihx st' fun z hz => hx z (by simp [hz])
    obtain ⟨seen, funcs⟩ := st
    simp only [dfs, he.ctx ht]
    split
    · rfl
    · rw [hfold _ _ fun x hx => Nat.lt_trans (hw.inputs_lt ht x hx) ht]

structure BwdRes (A : Scalar V) (w w' : World V) (y : Nat) (order : List Nat) : Prop where
  step : BStep w w'
  dfs : ∃ seen, dfs w.g (y + 1) y ([], []) = .ok (seen, order.reverse)
  nodup : order.Nodup
  mem : ∀ z, z ∈ order ↔ Reach w.g y z ∧ (w.g.ctx z).inputs ≠ []
  first : ConsumersFirst w.g order
  some : ∀ i, Reach w.g y i → (w'.grad i).isSome
  same : ∀ i, ¬ Reach w.g y i → w'.grad i = w.grad i
  sum : ∀ i < w.g.length, OptEq (gradT A w' i) ((order.flatMap (contribsW A w.g (gradT A w') i)).foldl (addGrad A) (seedT A w y i))

theorem reverse_split {l l1 l2 : List Nat} {f : Nat} (h : l.reverse = l1 ++ f :: l2) : l = l2.reverse ++ f :: l1.reverse := by
  have := congrArg List.reverse h
  simpa using this

theorem backward_ok (A : Scalar V) {w : World V} (h : WF w.g) (hn : NN w.g) (hs : GradShapes w) {y : Nat} (hy : y < w.g.length) (hb : BackwardOK w.g y) :
    ∃ w' order, backward A w y = .ok w' ∧ BwdRes A w w' y order := by
  obtain ⟨b0, s0, u0, v0⟩ := seed_ok A h hn hs hy
  have hy1 : y < (seed A w y).g.length := Nat.lt_of_lt_of_le hy b0.ext.length
  obtain ⟨seen, ord, e, hnd, hif, hmem, hcons⟩ := dfs_root b0.wf hy1
  have hmem' : ∀ z, z ∈ ord ↔ Reach w.g y z ∧ (w.g.ctx z).inputs ≠ [] := by
    intro z
    rw [hmem, Reach.ext b0.ext h hy]
    constructor
    · rintro ⟨h1, h2⟩; exact ⟨h1, by rwa [b0.ext.ctx (Nat.lt_of_le_of_lt (h1.le h hy) hy)] at h2⟩
    · rintro ⟨h1, h2⟩; exact ⟨h1, by rwa [b0.ext.ctx (Nat.lt_of_le_of_lt (h1.le h hy) hy)]⟩
  have hlt : ∀ z ∈ ord, z < w.g.length := fun z hz => Nat.lt_of_le_of_lt (((hmem' z).1 hz).1.le h hy) hy
  have hfirst : ConsumersFirst (seed A w y).g ord.reverse := by
    intro l1 f l2 el x hx
    have hf : f ∈ ord := by rw [← List.mem_reverse, el]; simp
    have hxf := b0.wf.inputs_lt (Nat.lt_of_lt_of_le (hlt f hf) b0.ext.length) x hx
    refine ⟨fun hm => ?_, by omega⟩
    have el' := reverse_split el
    have hxo : x ∈ ord := by rw [el']; simp [hm]
    have hxn := ((hmem x).1 hxo).2
    have := hif _ _ _ el' x hx hxn
    rw [el'] at hnd
    have hd := List.nodup_append.1 hnd
    exact hd.2.2 x this x (by simp [hm]) rfl
  obtain ⟨w', e', b', u', v', s'⟩ := visits_ok A (seed A w y).g (seedT A w y) ord.reverse [] b0.wf b0.nn b0.gs (Ext.refl _) b0.wf
    (by
      intro t ht
      have ht' : t ∈ ord := by simpa using ht
      refine ⟨Nat.lt_of_lt_of_le (hlt t ht') b0.ext.length, ((hmem t).1 ht').2, GradNode.ext b0.ext h (hlt t ht') (hb t ((hmem' t).1 ht').1)⟩)
    (by simpa using hnd) (by rw [List.nil_append]; exact hfirst)
    (by
      intro l1 f l2 el
      have hf : f ∈ ord := by rw [← List.mem_reverse, el]; simp
      rcases hcons f hf with rfl | ⟨c, hc, hfc⟩
      · exact .inl s0
      · refine .inr ⟨c, ?_, hfc⟩
        rw [← List.mem_reverse, el] at hc
        rcases List.mem_append.1 hc with hc | hc
        · exact hc
        · exfalso
          rcases List.mem_cons.1 hc with rfl | hc
          · have := b0.wf.inputs_lt (Nat.lt_of_lt_of_le (hlt c hf) b0.ext.length) c hfc; omega
          · obtain ⟨m1, m2, em⟩ := List.append_of_mem hc
            have := hfirst (l1 ++ f :: m1) c m2 (by rw [el, em]; simp) f hfc
            exact this.1 (by simp))
    (by intro i _; exact v0 i) (by simp)
  refine ⟨w', ord.reverse, ?_, b0.trans b', ⟨seen, by rw [List.reverse_reverse, ← e, dfs_ext b0.ext h _ _ _ hy]⟩, by simpa using hnd, fun z => by rw [List.mem_reverse]; exact hmem' z, ?_, fun i hi => ?_, fun i hi => ?_, fun i hi => ?_⟩
  · simp only [backward, e, bind, Except.bind]; exact e'
  · intro l1 f l2 el x hx
    have hf : f ∈ ord := by rw [← List.mem_reverse, el]; simp
    exact hfirst l1 f l2 el x (by rwa [b0.ext.ctx (hlt f hf)])
  · cases hi with
    | refl => exact b'.mono y s0
    | @step c _ hc hx =>
      have hcl := Nat.lt_of_le_of_lt (hc.le h hy) hy
      have hco : c ∈ ord := (hmem' c).2 ⟨hc, by intro e; rw [e] at hx; simp at hx⟩
      exact (s' c (by simpa using hco)).2 i (by rwa [b0.ext.ctx hcl])
  · rw [u' i (fun t ht hin => ?_), u0 i (fun e => hi (e ▸ .refl))]
    have ht' : t ∈ ord := by simpa using ht
    rw [b0.ext.ctx (hlt t ht')] at hin
    exact hi (.step ((hmem' t).1 ht').1 hin)
  · have hi' : i < (seed A w y).g.length := Nat.lt_of_lt_of_le hi b0.ext.length
    refine (v' i hi').trans ?_
    have hfm : ([] ++ ord.reverse).flatMap (contribsW A (seed A w y).g (gradT A w') i) = ord.reverse.flatMap (contribsW A w.g (gradT A w') i) := by
      rw [List.nil_append]
      simp only [List.flatMap]
      congr 1
      apply List.map_congr_left
      intro t ht
      simp only [contribsW]
      cases gradT A w' t with
      | none => rfl
      | some G => exact contribs_ext A b0.ext b0.wf (hlt t (by simpa using ht)) i G
    rw [hfm]
    exact .refl _

end Whale
