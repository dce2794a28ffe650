import Verif.Proofs.RelatedB
/-
Sessions that run the same program: materializing and reading back.
-/
namespace Whale
open Hist Mat
variable {V V1 V2 : Type} {R : V1 → V2 → Prop}

/-- Graph and gradients unchanged. -/
def Keeps (w w' : World V) : Prop := w'.g = w.g ∧ w'.grad = w.grad

theorem Keeps.refl (w : World V) : Keeps w w := ⟨rfl, rfl⟩
theorem Keeps.trans {w w' w'' : World V} (h : Keeps w w') (k : Keeps w' w'') : Keeps w w'' := ⟨k.1.trans h.1, k.2.trans h.2⟩

theorem foldlM_keeps {α : Type} {f : World V → α → Except Err (World V)} (hf : ∀ w a w', f w a = .ok w' → Keeps w w') : ∀ (l : List α) (w w' : World V), l.foldlM f w = .ok w' → Keeps w w'
  | [], w, w', h => by cases h; exact .refl w
  | a :: l, w, w', h => by
    rw [List.foldlM_cons] at h
    obtain ⟨w1, h1, h2⟩ := except_bind_ok h
    exact (hf w a w1 h1).trans (foldlM_keeps hf l w1 w' h2)

theorem fillCpu_keeps (A : Scalar V) (w : World V) (i : Nat) : Keeps w (fillCpu A w i) := by
  unfold fillCpu; split <;> exact ⟨rfl, rfl⟩

theorem foldl_fill_keeps (A : Scalar V) : ∀ (l : List Nat) (w : World V), Keeps w (l.foldl (fillCpu A) w)
  | [], w => .refl w
  | i :: l, w => (fillCpu_keeps A w i).trans (foldl_fill_keeps A l _)

theorem toDev_keeps {b : Backend V} {w w' : World V} {p : Nat × Nat} (h : toDev b w p = .ok w') : Keeps w w' := by
  unfold toDev at h
  obtain ⟨w1, h1, h2⟩ := except_bind_ok h
  cases h2
  have : Keeps w w1 := by
    unfold alloc at h1
    split at h1
    · cases h1; exact .refl _
    · split at h1
      · cases h1
      · cases h1; exact ⟨rfl, rfl⟩
  refine this.trans ?_
  unfold htod
  split
  · split
    · exact ⟨rfl, rfl⟩
    · exact .refl _
  · exact .refl _

theorem invoke_keeps {b : Backend V} {w w' : World V} {sch : Schedule} {K : Kernel} {out : Nat} {ins : List Nat} (h : invoke b w sch K out ins = .ok w') : Keeps w w' := by
  unfold invoke at h
  dsimp only at h
  split at h
  · cases h
  split at h
  · cases h
  split at h
  · obtain ⟨w1, h1, h2⟩ := except_bind_ok h
    have hk := foldlM_keeps (fun w a w' => toDev_keeps) _ _ _ h1
    split at h2
    · split at h2
      · cases h2; exact hk.trans ⟨rfl, rfl⟩
      · cases h2
    · cases h2
  · have hk := foldl_fill_keeps b.A (out :: ins) w
    split at h
    · split at h
      · cases h; exact hk.trans ⟨rfl, rfl⟩
      · cases h
    · cases h

theorem runFunc_keeps {b : Backend V} {t : Tbl} {n : Nat} {w w' : World V} {p : Nat × Schedule} (h : runFunc b t n w p = .ok w') : Keeps w w' := by
  unfold runFunc at h
  split at h
  · cases h
  · obtain ⟨outs, _, h⟩ := except_bind_ok h
    obtain ⟨key, _, h⟩ := except_bind_ok h
    dsimp only at h
    split at h
    · have := invoke_keeps h
      exact ⟨this.1, this.2⟩
    · obtain ⟨⟨K, m⟩, _, h⟩ := except_bind_ok h
      obtain ⟨w1, h1, h⟩ := except_bind_ok h
      cases h
      have := invoke_keeps h1
      exact ⟨this.1, this.2⟩

theorem materialize_keeps {b : Backend V} {w w' : World V} {a : Nat} (h : materialize b w a = .ok w') : Keeps w w' := by
  unfold materialize at h
  generalize a + 1 = n at h
  induction n generalizing a with
  | zero => cases h
  | succ n ih =>
    unfold materializeF at h
    split at h
    · cases h; exact .refl _
    · split at h
      · split at h
        · exact ih h
        · cases h
      · obtain ⟨⟨funcs, t⟩, _, h⟩ := except_bind_ok h
        obtain ⟨scheds, _, h⟩ := except_bind_ok h
        have := foldlM_keeps (fun w a w' => runFunc_keeps) _ _ _ h
        exact ⟨this.1, this.2⟩

theorem tolist_keeps {b : Backend V} {w : World V} {a : Nat} {p : Nested V × World V} (h : tolist b w a = .ok p) : Keeps w p.2 := by
  unfold tolist at h
  obtain ⟨w1, h1, h⟩ := except_bind_ok h
  have : Keeps w w1 := by
    unfold ensureCpu at h1
    split at h1
    · cases h1; exact .refl _
    · split at h1
      · split at h1
        · cases h1; exact ⟨rfl, rfl⟩
        · cases h1
      · cases h1
  split at h
  · obtain ⟨l, _, h⟩ := except_bind_ok h
    cases h; exact this
  · cases h

theorem notLazy {c : Call V} (h : ¬ lazyCall c = true) : (∃ a, c = .materialize a) ∨ ∃ a, c = .tolist a := by
  cases c <;> first | exact absurd rfl h | exact .inl ⟨_, rfl⟩ | exact .inr ⟨_, rfl⟩

theorem Both.reachable {b1 : Backend V1} {b2 : Backend V2} {w1 : World V1} {w2 : World V2} (h : Both R b1 b2 w1 w2) : Reachable b1 w1 ∧ Reachable b2 w2 := by
  induction h with
  | init => exact ⟨.init, .init⟩
  | call _ _ l1 h1 l2 h2 ih => exact ⟨.call ih.1 l1 h1, .call ih.2 l2 h2⟩
  | stopped _ y1 a1 s1 y2 a2 s2 _ _ ih => exact ⟨.stopped ih.1 y1 a1 s1, .stopped ih.2 y2 a2 s2⟩

/-- The two sessions stay related. -/
theorem Both.rel {b1 : Backend V1} {b2 : Backend V2} (hb1 : Faithful b1) (hb2 : Faithful b2) (hA : SameConstants R b1.A b2.A) {w1 : World V1} {w2 : World V2} (h : Both R b1 b2 w1 w2) : WRel R w1 w2 := by
  induction h with
  | init => exact ⟨.nil, rfl⟩
  | @call w1 w1' w2 w2' c _ hc _ h1 _ h2 ih =>
    by_cases hl : lazyCall c = true
    · have := step_rel hA ih hc hl
      unfold next at h1 h2
      match hx : step b1 w1 (c.map Prod.fst), hy : step b2 w2 (c.map Prod.snd), this with
      | .ok (o1, v1), .ok (o2, v2), h => rw [hx] at h1; rw [hy] at h2; cases h1; cases h2; exact h.2
      | .error e, .error _, rfl =>
        rw [hx] at h1; rw [hy] at h2
        dsimp only at h1 h2
        split at h1
        · split at h2
          · cases h1; cases h2; exact ih
          · cases h2
        · cases h1
    · have key : ∀ {V : Type} (b : Backend V) (w w' : World V) (a : Nat), next b w (.materialize a) = some w' ∨ next b w (.tolist a) = some w' → Keeps w w' := by
        intro V b w w' a h
        rcases h with h | h
        all_goals
          unfold next step at h
          simp only [exec1] at h
          split at h
          · rename_i o w'' hs
            cases h
            split at hs
            · first
              | (cases hm : materialize b w a with
                | error e => rw [hm] at hs; cases hs
                | ok w1 => rw [hm] at hs; cases hs; exact materialize_keeps hm)
              | (cases hm : tolist b w a with
                | error e => rw [hm] at hs; cases hs
                | ok w1 => rw [hm] at hs; cases hs; exact tolist_keeps hm)
            · cases hs
          · split at h
            · cases h; exact .refl _
            · cases h
      rcases notLazy hl with ⟨a, rfl⟩ | ⟨a, rfl⟩
      · have k1 := key b1 w1 w1' a (.inl h1)
        have k2 := key b2 w2 w2' a (.inl h2)
        exact ⟨by rw [k1.1, k2.1]; exact ih.g, by rw [k1.2, k2.2]; exact ih.grad⟩
      · have k1 := key b1 w1 w1' a (.inr h1)
        have k2 := key b2 w2 w2' a (.inr h2)
        exact ⟨by rw [k1.1, k2.1]; exact ih.g, by rw [k1.2, k2.2]; exact ih.grad⟩
  | @stopped w1 w1' w2 w2' y hw y1 a1 s1 y2 a2 s2 hl hg ih =>
    have i1 := hw.reachable.1.inv hb1
    have i2 := hw.reachable.2.inv hb2
    obtain ⟨v1, _, e1, _⟩ := backward_ok b1.A i1.winv.wf i1.nn i1.gs y1 a1
    obtain ⟨v2, _, e2, _⟩ := backward_ok b2.A i2.winv.wf i2.nn i2.gs y2 a2
    have hv := backward_rel hA ih y
    rw [e1, e2] at hv
    obtain ⟨t1, h1⟩ := s1.within b1.A i1.winv.wf i1.nn i1.gs y1 a1 e1
    obtain ⟨t2, h2⟩ := s2.within b2.A i2.winv.wf i2.nn i2.gs y2 a2 e2
    refine ⟨?_, hg⟩
    have hvg : List.Forall₂ (NodeRel R) v1.g v2.g := hv.g
    rw [← h1, ← h2] at hvg
    have := List.forall₂_take w1'.g.length hvg
    rw [List.take_left] at this
    rw [hl, List.take_left] at this
    exact this

/-! ### reading back -/

/-- What `tolist` returns, also for arrays whose view chain is broken. -/
theorem tolist_base {b : Backend V} {w : World V} (h : WInv b w) {a : Nat} (ha : a < w.g.length) {p : Nested V × World V} (ht : tolist b w a = .ok p) :
    ND.toNdlist (den b.A w.g (base w.g a)).flatten (w.g.shape a) (w.g.strides a) (w.g.offset a) = .ok p.1 := by
  have hbl : base w.g a < w.g.length := Nat.lt_of_le_of_lt (base_le h.wf ha) ha
  obtain ⟨cpu, ev, e, hi, hc, hm⟩ := ensureCpu_ok h hbl (tolist_avail ht)
  unfold tolist at ht
  simp only [e, bind, Except.bind, hc] at ht
  cases hl : ND.toNdlist (den b.A w.g (base w.g a)).flatten (w.g.shape a) (w.g.strides a) (w.g.offset a) with
  | error e => rw [hl] at ht; cases ht
  | ok l => rw [hl] at ht; cases ht; rfl

theorem RelatedLists.node {ls1 : List (Nested V1)} {ls2 : List (Nested V2)} (h : List.Forall₂ (RelatedLists R) ls1 ls2) : RelatedLists R (.node ls1) (.node ls2) := by
  induction h with
  | nil => exact ⟨.node [], rfl, rfl, by intro p hp; cases hp⟩
  | cons h _ ih =>
    obtain ⟨l, rfl, rfl, hl⟩ := h
    obtain ⟨ls, e1, e2, hls⟩ := ih
    cases ls with
    | leaf v => cases e1
    | node ls =>
      simp only [Nested.map, Nested.node.injEq] at e1 e2
      refine ⟨.node (l :: ls), by simp [Nested.map, Nested.mapL, e1], by simp [Nested.map, Nested.mapL, e2], fun p hp => ?_⟩
      simp only [leaves, leavesL, List.mem_append] at hp
      rcases hp with hp | hp
      · exact hl p hp
      · exact hls p (by simpa [leaves] using hp)

theorem fetch_rel {d1 : List V1} {d2 : List V2} (hd : List.Forall₂ R d1 d2) (k : Int) {v1 v2} (h1 : ND.fetch d1 k = .ok v1) (h2 : ND.fetch d2 k = .ok v2) : R v1 v2 := by
  unfold ND.fetch at h1 h2
  split at h1
  swap
  · cases h1
  rename_i hk
  rw [if_pos hk] at h2
  generalize k.toNat = n at h1 h2
  induction hd generalizing n with
  | nil => simp at h1
  | cons h _ ih => cases n with
    | zero => simp at h1 h2; cases h1; cases h2; exact h
    | succ n => exact ih n (by simpa using h1) (by simpa using h2)

theorem toNdlist_rel {d1 : List V1} {d2 : List V2} (hd : List.Forall₂ R d1 d2) : ∀ (s st : List Int) (o : Int) {l1 l2}, ND.toNdlist d1 s st o = .ok l1 → ND.toNdlist d2 s st o = .ok l2 → RelatedLists R l1 l2
  | [], st, o, l1, l2, h1, h2 => by
    unfold ND.toNdlist at h1 h2
    obtain ⟨v1, e1, h1⟩ := except_bind_ok h1
    obtain ⟨v2, e2, h2⟩ := except_bind_ok h2
    cases h1; cases h2
    exact ⟨.leaf (v1, v2), rfl, rfl, fun p hp => by simp only [leaves, List.mem_singleton] at hp; rw [hp]; exact fetch_rel hd o e1 e2⟩
  | d :: s, st, o, l1, l2, h1, h2 => by
    unfold ND.toNdlist at h1 h2
    cases st with
    | nil =>
      dsimp only at h1 h2
      split at h1
      · rename_i hs; rw [if_pos hs] at h2; cases h1; cases h2; exact .node .nil
      · cases h1
    | cons x st =>
      dsimp only at h1 h2
      obtain ⟨v1, e1, h1⟩ := except_bind_ok h1
      obtain ⟨v2, e2, h2⟩ := except_bind_ok h2
      cases h1; cases h2
      clear h1 h2
      refine .node ?_
      generalize irange d = is at e1 e2
      induction is generalizing v1 v2 with
      | nil => cases e1; cases e2; exact .nil
      | cons i is ih =>
        rw [List.mapM_cons] at e1 e2
        obtain ⟨a1, f1, e1⟩ := except_bind_ok e1
        obtain ⟨a2, f2, e2⟩ := except_bind_ok e2
        obtain ⟨r1, g1, e1⟩ := except_bind_ok e1
        obtain ⟨r2, g2, e2⟩ := except_bind_ok e2
        cases e1; cases e2
        exact .cons (toNdlist_rel hd s st _ f1 f2) (ih _ _ g1 g2)

theorem flatten_rel {T1 : Tensor V1} {T2 : Tensor V2} (hs : T1.shape = T2.shape) (h : ∀ idx, R (T1.get idx) (T2.get idx)) : List.Forall₂ R T1.flatten T2.flatten := by
  unfold Tensor.flatten
  rw [hs]
  generalize indices T2.shape = l
  induction l with
  | nil => exact .nil
  | cons i l ih => exact .cons (h i) ih

theorem base_rel {g1 : Graph V1} {g2 : Graph V2} (h : GRel R g1 g2) (a : Nat) : base g1 a = base g2 a := by
  unfold base
  generalize a + 1 = n
  induction n generalizing a with
  | zero => rfl
  | succ n ih =>
    unfold baseF
    rw [h.ctx]
    split
    · split
      · exact ih _
      · rfl
    · rfl

end Whale
