import Verif.Proofs.Demo
/-
C11, C12, C13: broadcasting and elementwise operations.
-/
namespace Whale.Props
open Whale Mat Hist
variable {V : Type}

theorem dimR_pad (n : Nat) (s : List Int) (k : Nat) : dimR (List.replicate n 1 ++ s) k = dimR s k := by
  unfold dimR
  rw [List.reverse_append, List.reverse_replicate, List.getD_eq_getElem?_getD, List.getD_eq_getElem?_getD, List.getElem?_append]
  split
  · rfl
  · rename_i h
    rw [List.getElem?_replicate, List.getElem?_eq_none (l := s.reverse) (by omega)]
    split <;> rfl

/-- The per-dimension loop on lists of the same length. -/
def compatL (l1 l2 : List Int) : Prop := ∀ i < l1.length, geti l1 i = geti l2 i ∨ geti l1 i = 1 ∨ geti l2 i = 1

theorem broadcastDims_iff {l1 l2 : List Int} (hl : l1.length = l2.length) :
    (compatL l1 l2 → ND.broadcastDims l1 l2 = .ok (List.zipWith (fun a b => if a = 1 then b else a) l1 l2)) ∧
    (¬ compatL l1 l2 → ∃ e, ND.broadcastDims l1 l2 = .error e) := by
  induction l1 generalizing l2 with
  | nil => cases l2 with
    | nil => exact ⟨fun _ => rfl, fun h => absurd (fun i hi => by simp at hi) h⟩
    | cons b l2 => simp at hl
  | cons a l1 ih => cases l2 with
    | nil => simp at hl
    | cons b l2 =>
      obtain ⟨i1, i2⟩ := ih (l2 := l2) (by simpa using hl)
      have hc : compatL (a :: l1) (b :: l2) ↔ (a = b ∨ a = 1 ∨ b = 1) ∧ compatL l1 l2 := by
        constructor
        · intro h
          exact ⟨by simpa using h 0 (by simp), fun i hi => by simpa using h (i + 1) (by simpa using hi)⟩
        · rintro ⟨h1, h2⟩ i hi
          cases i with
          | zero => simpa using h1
          | succ i => simpa using h2 i (by simpa using hi)
      rw [hc]
      simp only [ND.broadcastDims]
      constructor
      · rintro ⟨h1, h2⟩
        rw [i1 h2]
        simp only [List.zipWith_cons_cons]
        by_cases hab : a = b
        · simp [hab, bind, Except.bind, pure, Except.pure]
        · by_cases ha : a = 1
          · subst ha; simp [hab, bind, Except.bind, pure, Except.pure]
          · have hb : b = 1 := by omega
            simp [hab, ha, hb, bind, Except.bind, pure, Except.pure]
      · intro h
        by_cases h2 : compatL l1 l2
        · have h1 : ¬ (a = b ∨ a = 1 ∨ b = 1) := fun h1 => h ⟨h1, h2⟩
          have : a ≠ b ∧ a ≠ 1 ∧ b ≠ 1 := by omega
          exact ⟨.notBroadcastable, by simp [this, bind, Except.bind, throw, throwThe, MonadExceptOf.throw]⟩
        · obtain ⟨e, he⟩ := i2 h2
          rw [he]
          by_cases hab : a = b
          · exact ⟨e, by simp [hab, bind, Except.bind, pure, Except.pure]⟩
          · by_cases ha : a = 1
            · exact ⟨e, by simp [hab, ha, bind, Except.bind, pure, Except.pure]⟩
            · by_cases hb : b = 1
              · exact ⟨e, by simp [hab, ha, hb, bind, Except.bind, pure, Except.pure]⟩
              · exact ⟨.notBroadcastable, by simp [hab, ha, hb, bind, Except.bind, throw, throwThe, MonadExceptOf.throw]⟩

theorem dimR_geti {l : List Int} {k : Nat} (h : k < l.length) : dimR l k = geti l (l.length - 1 - k) := by
  unfold dimR
  rw [geti_eq_getElem (by omega), List.getD_eq_getElem?_getD, List.getElem?_eq_getElem (by simpa using h)]
  simp

theorem dimR_ge {l : List Int} {k : Nat} (h : l.length ≤ k) : dimR l k = 1 := by
  unfold dimR
  rw [List.getD_eq_getElem?_getD, List.getElem?_eq_none (by simpa using h)]; rfl

theorem compatL_iff {l1 l2 : List Int} (hl : l1.length = l2.length) : compatL l1 l2 ↔ Compatible l1 l2 := by
  constructor
  · intro h k
    by_cases hk : k < l1.length
    · rw [dimR_geti hk, dimR_geti (by omega), ← hl]; exact h _ (by omega)
    · left; rw [dimR_ge (by omega), dimR_ge (by omega)]
  · intro h i hi
    have := h (l1.length - 1 - i)
    rw [dimR_geti (by omega), dimR_geti (by omega), ← hl, show l1.length - 1 - (l1.length - 1 - i) = i from by omega] at this
    exact this

theorem dimR_zip {l1 l2 : List Int} (hl : l1.length = l2.length) (k : Nat) :
    dimR (List.zipWith (fun a b => if a = 1 then b else a) l1 l2) k = if dimR l1 k = 1 then dimR l2 k else dimR l1 k := by
  have hz : (List.zipWith (fun a b : Int => if a = 1 then b else a) l1 l2).length = l1.length := by simp [hl]
  by_cases hk : k < l1.length
  · rw [dimR_geti (by omega), dimR_geti hk, dimR_geti (by omega : k < l2.length), hz, ← hl]
    rw [geti_eq_getElem (by omega), geti_eq_getElem (by omega), geti_eq_getElem (by omega)]
    simp
  · rw [dimR_ge (by omega), dimR_ge (by omega : l1.length ≤ k), dimR_ge (by omega : l2.length ≤ k)]; simp

theorem broadcastShapes_iff (s t : List Int) :
    (Compatible s t → ∃ r, ND.broadcastShapes s t = .ok r ∧ IsBroadcast s t r) ∧ (¬ Compatible s t → ∃ e, ND.broadcastShapes s t = .error e) := by
  have hl : (List.replicate (max s.length t.length - s.length) 1 ++ s).length = (List.replicate (max s.length t.length - t.length) (1 : Int) ++ t).length := by simp
  obtain ⟨h1, h2⟩ := broadcastDims_iff hl
  have hc : Compatible (List.replicate (max s.length t.length - s.length) 1 ++ s) (List.replicate (max s.length t.length - t.length) (1 : Int) ++ t) ↔ Compatible s t := by
    unfold Compatible; simp only [dimR_pad]
  rw [compatL_iff hl, hc] at h1 h2
  refine ⟨fun h => ⟨_, h1 h, ?_, fun k => ?_⟩, h2⟩
  · simp
  · rw [dimR_zip hl, dimR_pad, dimR_pad]

theorem _root_.Whale.IsBroadcast.unique {s t r r' : List Int} (h : IsBroadcast s t r) (h' : IsBroadcast s t r') : r = r' := by
  apply ext_geti (by rw [h.1, h'.1])
  intro k hk
  have hl : r.length = r'.length := by rw [h.1, h'.1]
  have e := h.2 (r.length - 1 - k)
  rw [← h'.2 (r.length - 1 - k), dimR_geti (by omega), dimR_geti (by omega), ← hl, show r.length - 1 - (r.length - 1 - k) = k from by omega] at e
  exact e

theorem _root_.Whale.IsBroadcast.symm {s t r : List Int} (hc : Compatible s t) (h : IsBroadcast s t r) : IsBroadcast t s r := by
  refine ⟨by rw [h.1]; omega, fun k => ?_⟩
  rw [h.2 k]
  have := hc k
  split <;> split <;> omega

/-- C11.  A binary operation raises exactly when the operand shapes cannot be broadcast together. -/
theorem C11_raises {b : Backend V} (hb : Faithful b) {w : World V} (hw : Reachable b w) {x y : Nat} (hx : x < w.g.length) (hy : y < w.g.length) (op : Bn) :
    (∃ e, step b w (.bin op x y) = .error e) ↔ ¬ Compatible (w.g.shape x) (w.g.shape y) := by
  have h := hw.inv hb
  have hin : ∀ a ∈ (Call.bin op x y : Call V).arrays, a < w.g.length := by simp [Call.arrays, hx, hy]
  obtain ⟨h1, h2⟩ := broadcastShapes_iff (w.g.shape x) (w.g.shape y)
  by_cases hc : Compatible (w.g.shape x) (w.g.shape y)
  · refine ⟨fun ⟨e, he⟩ => ?_, fun hn => absurd hc hn⟩
    obtain ⟨s, hs, _⟩ := h1 hc
    obtain ⟨r, g', e1, _⟩ := binary_s h.winv.wf h.nn hx hy op.arith hs
    rw [step_made (r := r) (g' := g') hin (by simp only [exec1, e1])] at he
    cases he
  · refine ⟨fun _ => hc, fun _ => ?_⟩
    obtain ⟨e, he⟩ := h2 hc
    refine ⟨e, ?_⟩
    rw [step_eq hin]
    simp only [exec1, ND.binary, ND.broadcasted, he, bind, Except.bind, madeE]

theorem project_eq {s r idx : List Int} (hi : ValidIdx r idx) :
    project s idx = List.zipWith (fun d i => if d = 1 then 0 else i) s (idx.drop (r.length - s.length)) := by
  unfold project; rw [hi.length]

/-- C11 and C13.  Otherwise the result has the broadcast shape, and its element at `idx` is the scalar operation applied to the operands' elements at the
projected indices, left operand first. -/
theorem C13_binary {b : Backend V} (hb : Faithful b) {w : World V} (hw : Reachable b w) {x y : Nat} (hx : x < w.g.length) (hy : y < w.g.length) (op : Bn)
    (hc : Compatible (w.g.shape x) (w.g.shape y)) :
    ∃ r w' s, step b w (.bin op x y) = .ok (.arr r, w') ∧ IsBroadcast (w.g.shape x) (w.g.shape y) s ∧
      Is b w' r ⟨s, fun idx => b.A.bin op.op ((value b w x).get (project (w.g.shape x) idx)) ((value b w y).get (project (w.g.shape y) idx))⟩ := by
  have h := hw.inv hb
  have hin : ∀ a ∈ (Call.bin op x y : Call V).arrays, a < w.g.length := by simp [Call.arrays, hx, hy]
  obtain ⟨s, hs, hbc⟩ := (broadcastShapes_iff (w.g.shape x) (w.g.shape y)).1 hc
  obtain ⟨r, g', e1, m, d⟩ := binary_s h.winv.wf h.nn hx hy op.arith hs
  refine ⟨r, _, s, step_made hin (by simp only [exec1, e1]), hbc, made_is hb h m ((d b.A).trans ⟨rfl, fun idx hi => ?_⟩)⟩
  have hi' : ValidIdx s idx := hi
  simp only [Tensor.zip, Tensor.broadcastTo]
  rw [project_eq hi', project_eq hi', den_shape b.A h.winv.wf hx, den_shape b.A h.winv.wf hy]; rfl

/-- C11.  Result shape. -/
theorem C11_shape {b : Backend V} (hb : Faithful b) {w : World V} (hw : Reachable b w) {x y : Nat} (hx : x < w.g.length) (hy : y < w.g.length) {op : Bn} {r : Nat}
    {w' : World V} (hs : step b w (.bin op x y) = .ok (.arr r, w')) : IsBroadcast (w.g.shape x) (w.g.shape y) (w'.g.shape r) := by
  have hc : Compatible (w.g.shape x) (w.g.shape y) := by
    by_contra hn
    obtain ⟨e, he⟩ := (C11_raises hb hw hx hy op).2 hn
    rw [hs] at he; cases he
  obtain ⟨r2, w2, s, e, hbc, hi⟩ := C13_binary hb hw hx hy op hc
  rw [hs] at e
  simp only [Except.ok.injEq, Prod.mk.injEq, Out.arr.injEq] at e
  obtain ⟨rfl, rfl⟩ := e
  rw [hi.shape]; exact hbc

/-- C11.  The rule is symmetric in the operands. -/
theorem C11_symmetric {b : Backend V} (hb : Faithful b) {w : World V} (hw : Reachable b w) {x y : Nat} (hx : x < w.g.length) (hy : y < w.g.length) {op op' : Bn} {r : Nat}
    {w' : World V} (hs : step b w (.bin op x y) = .ok (.arr r, w')) :
    ∃ r2 w2, step b w (.bin op' y x) = .ok (.arr r2, w2) ∧ w2.g.shape r2 = w'.g.shape r := by
  have hc : Compatible (w.g.shape x) (w.g.shape y) := by
    by_contra hn
    obtain ⟨e, he⟩ := (C11_raises hb hw hx hy op).2 hn
    rw [hs] at he; cases he
  have hc' : Compatible (w.g.shape y) (w.g.shape x) := fun k => by have := hc k; omega
  obtain ⟨r2, w2, s, e, hbc, hi⟩ := C13_binary hb hw hy hx op' hc'
  exact ⟨r2, w2, e, by rw [hi.shape]; exact (hbc.symm hc').unique (C11_shape hb hw hx hy hs)⟩

/-- `(3, 1)` and `(2, 1, 3)`... here: `(2, 3)` with `(2, 1)` broadcast, `(2, 3)` with `(3, 2)` do not. -/
example : Demo.listOf [.array Demo.m23, .sum 0 (.int 1) true, .bin .sub 0 1, .materialize 3] (.tolist 3) = some ([2, 3], [-5, -4, -3, -11, -10, -9]) ∧
    Demo.ok [.array Demo.m23, .T 0] (.bin .add 0 1) = false ∧ dimR [2, 3] 0 = 3 ∧ dimR [2, 1] 0 = 1 := by decide +kernel

theorem broadcastsTo_of_dimR {s t : List Int} (hl : s.length ≤ t.length) (hs : ∀ k < s.length, dimR s k = dimR t k ∨ dimR s k = 1) : BroadcastsTo s t := by
  refine ⟨hl, ?_⟩
  have aux : ∀ s t : List Int, s.length = t.length → (∀ k < s.length, geti s k = geti t k ∨ geti s k = 1) → bcastOK s t := by
    intro s
    induction s with
    | nil => intro t ht _; cases t with
      | nil => trivial
      | cons => simp at ht
    | cons c s ih => intro t ht hk; cases t with
      | nil => simp at ht
      | cons d t =>
        exact ⟨by simpa using hk 0 (by simp), ih t (by simpa using ht) (fun k hk' => by simpa using hk (k + 1) (by simpa using hk'))⟩
  refine aux _ _ (by simp; omega) (fun k hk => ?_)
  have := hs (s.length - 1 - k) (by omega)
  rw [dimR_geti (by omega), dimR_geti (by omega), show s.length - 1 - (s.length - 1 - k) = k from by omega] at this
  rw [geti_eq_getElem (l := t.drop _) (by simp; omega), List.getElem_drop, ← geti_eq_getElem (by omega)]
  rw [show t.length - 1 - (s.length - 1 - k) = t.length - s.length + k from by omega] at this
  exact this

/-- C12 as far as it holds: if `a.shape` broadcasts to `s`, the result has shape `s` and its element at `idx` is `a` at the projected index.
Missing: other shapes are not rejected (`C12_never_raises`). -/
theorem C12_broadcast_to_partial {b : Backend V} (hb : Faithful b) {w : World V} (hw : Reachable b w) {a : Nat} (ha : a < w.g.length) {s : List Int} (hn : NonNeg s)
    (hl : (w.g.shape a).length ≤ s.length) (hs : ∀ k < (w.g.shape a).length, dimR (w.g.shape a) k = dimR s k ∨ dimR (w.g.shape a) k = 1) :
    ∃ r w', step b w (.broadcastTo a s) = .ok (.arr r, w') ∧ Is b w' r ⟨s, fun idx => (value b w a).get (project (w.g.shape a) idx)⟩ := by
  have h := hw.inv hb
  have hbt := broadcastsTo_of_dimR hl hs
  obtain ⟨m, d⟩ := broadcast_s h.winv.wf h.nn ha hbt hn
  refine ⟨_, _, step_made (by simpa [Call.arrays] using ha) (by simp only [exec1]; rfl), made_is hb h m ?_⟩
  refine (Tensor.Equiv.of_eq (d b.A)).trans ⟨rfl, fun idx hi => ?_⟩
  have hi' : ValidIdx s idx := hi
  simp only [Tensor.broadcastTo]
  rw [project_eq hi', den_shape b.A h.winv.wf ha]; rfl

example : Demo.listOf [.array Demo.m23, .getitem 0 [.slice none none none, .slice (some 1) (some 2) none], .broadcastTo 1 [2, 2, 2]] (.tolist 2) =
    some ([2, 2, 2], [2, 2, 5, 5, 2, 2, 5, 5]) := by decide +kernel

/-- C12: the code does not validate; `broadcast_to` accepts every shape. -/
theorem C12_never_raises {b : Backend V} {w : World V} {a : Nat} (ha : a < w.g.length) (s : List Int) :
    ∃ r w', step b w (.broadcastTo a s) = .ok (.arr r, w') ∧ w'.g.shape r = s :=
  ⟨_, _, step_made (by simpa [Call.arrays] using ha) (by simp only [exec1]; rfl), shape_push ..⟩

/-- C12 is false in the code: six elements "broadcast" to `(2, 2)` and read back. -/
theorem C12_counterexample : ∃ w : World Int, Reachable Demo.py w ∧ w.g.shape 0 = [6] ∧ ¬ BroadcastsTo [6] [2, 2] ∧
    ∃ r w', step Demo.py w (.broadcastTo 0 [2, 2]) = .ok (.arr r, w') ∧ ∃ l w2, step Demo.py w' (.tolist r) = .ok (.list l, w2) ∧ leaves l = [0, 1, 0, 1] :=
  ⟨Demo.after [.arange 6], Demo.reach (by decide +kernel), by decide +kernel, by decide, 1, _, rfl, _, _, rfl, by decide +kernel⟩

/-- C13.  Unary operations never raise and are elementwise. -/
theorem C13_unary {b : Backend V} (hb : Faithful b) {w : World V} (hw : Reachable b w) {a : Nat} (ha : a < w.g.length) (op : Un) :
    ∃ r w', step b w (.un op a) = .ok (.arr r, w') ∧ Is b w' r ⟨w.g.shape a, fun idx => b.A.un op.op ((value b w a).get idx)⟩ := by
  have h := hw.inv hb
  obtain ⟨m, d⟩ := unary_s h.winv.wf h.nn ha op.isUnary
  refine ⟨_, _, step_made (by simpa [Call.arrays] using ha) (by simp only [exec1]; rfl), made_is hb h m ?_⟩
  rw [d b.A]
  exact ⟨den_shape b.A h.winv.wf ha, fun idx _ => rfl⟩

/-- C13.  A Python number as right operand: never raises, elementwise. -/
theorem C13_scalar {b : Backend V} (hb : Faithful b) {w : World V} (hw : Reachable b w) {a : Nat} (ha : a < w.g.length) (op : Bn) (v : V) :
    ∃ r w', step b w (.binScalar op a v) = .ok (.arr r, w') ∧ Is b w' r ⟨w.g.shape a, fun idx => b.A.bin op.op ((value b w a).get idx) v⟩ := by
  have h := hw.inv hb
  obtain ⟨r, g', e, m, d⟩ := binary_scalar b.A h.winv.wf h.nn ha op.arith v
  refine ⟨_, _, step_made (by simpa [Call.arrays] using ha) (by simp only [exec1, e]), made_is hb h m ((d b.A).trans ?_)⟩
  exact ⟨den_shape b.A h.winv.wf ha, fun idx _ => rfl⟩

/-- Operand order: `m - 10` and `(m - 10) * m`. -/
example : Demo.listOf [.array Demo.m23, .binScalar .sub 0 10, .materialize 3] (.tolist 3) = some ([2, 3], [-9, -8, -7, -6, -5, -4]) ∧
    Demo.listOf [.array Demo.m23, .binScalar .sub 0 10, .bin .mul 3 0, .un .neg 4, .materialize 5] (.tolist 5) = some ([2, 3], [9, 16, 21, 24, 25, 24]) := by decide +kernel

end Whale.Props
