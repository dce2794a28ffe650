import Verif.Proofs.Tolist
import Verif.Spec.Nested
/-
Construction from nested lists.
-/
namespace Whale
variable {V : Type}

mutual
theorem HasShape.length_leaves {s : List Int} {v : Nested V} (h : HasShape s v) (hs : NonNeg s) : (leaves v).length = (prod s).toNat := by
  match s, v, h with
  | [], .leaf _, _ => simp [leaves]
  | a :: ss, .node l, h =>
    simp only [HasShape] at h
    simp only [leaves, prod_cons]
    rw [NonNeg.cons] at hs
    rw [HasShapeL.length_leaves h.2 hs.2, ← h.1, Int.toNat_mul (by omega) hs.2.prod_nonneg]
    simp
theorem HasShapeL.length_leaves {s : List Int} {l : List (Nested V)} (h : HasShapeL s l) (hs : NonNeg s) :
    (leavesL l).length = l.length * (prod s).toNat := by
  match l, h with
  | [], _ => simp [leavesL]
  | x :: xs, h =>
    simp only [HasShapeL] at h
    simp only [leavesL, List.length_append, List.length_cons]
    rw [HasShape.length_leaves h.1 hs, HasShapeL.length_leaves h.2 hs, Nat.add_mul]; omega
end

theorem shapeOf_nonNeg : (v : Nested V) → NonNeg (shapeOf v)
  | .leaf _ => by simp [shapeOf]
  | .node [] => by simp [shapeOf, NonNeg]
  | .node (x :: xs) => by
    simp only [shapeOf, NonNeg.cons]
    exact ⟨by omega, shapeOf_nonNeg x⟩

mutual
theorem arrayGo_known {v : Nested V} {s pre : List Int} {flat : List V} (h : HasShape s v) :
    ND.arrayGo v pre.length (pre ++ s, flat) = .ok (pre ++ s, flat ++ leaves v) := by
  match s, v, h with
  | [], .leaf _, _ => simp [ND.arrayGo, leaves, pure, Except.pure]
  | a :: ss, .node l, h =>
    simp only [HasShape] at h
    simp only [ND.arrayGo, leaves]
    rw [if_neg (by simp)]
    have hg : geti (pre ++ a :: ss) pre.length = a := by simp [geti]
    rw [if_neg (by simp [hg, h.1])]
    have := arrayGoL_known (l := l) (s := ss) (pre := pre ++ [a]) (flat := flat) h.2
    simpa using this
theorem arrayGoL_known {l : List (Nested V)} {s pre : List Int} {flat : List V} (h : HasShapeL s l) :
    ND.arrayGoL l pre.length (pre ++ s, flat) = .ok (pre ++ s, flat ++ leavesL l) := by
  match l, h with
  | [], _ => simp [ND.arrayGoL, leavesL, pure, Except.pure]
  | x :: xs, h =>
    simp only [HasShapeL] at h
    simp only [ND.arrayGoL, leavesL]
    rw [arrayGo_known h.1]
    simp only [bind, Except.bind]
    rw [arrayGoL_known h.2]; simp
end

theorem arrayGo_new : (v : Nested V) → (pre : List Int) → (flat : List V) → Rect v →
    ND.arrayGo v pre.length (pre, flat) = .ok (pre ++ shapeOf v, flat ++ leaves v)
  | .leaf _, pre, flat, _ => by simp [ND.arrayGo, leaves, shapeOf, pure, Except.pure]
  | .node [], pre, flat, _ => by simp [ND.arrayGo, ND.arrayGoL, leaves, leavesL, shapeOf, pure, Except.pure]
  | .node (x :: xs), pre, flat, h => by
    unfold Rect at h
    simp only [shapeOf, HasShape, HasShapeL] at h
    simp only [ND.arrayGo, if_true, ND.arrayGoL, leaves, leavesL, shapeOf]
    have h1 := arrayGo_new x (pre ++ [((x :: xs).length : Int)]) flat h.2.1
    rw [List.length_append, List.length_singleton] at h1
    rw [h1]
    simp only [bind, Except.bind]
    have h2 := arrayGoL_known (l := xs) (s := shapeOf x) (pre := pre ++ [((x :: xs).length : Int)]) (flat := flat ++ leaves x) h.2.2
    rw [List.length_append, List.length_singleton] at h2
    rw [h2]; simp

mutual
theorem toNested_leaves {v : Nested V} {s : List Int} (d : V) {pre post : List V} (h : HasShape s v) (hs : NonNeg s) :
    Tensor.toNestedAux s (fun idx => (pre ++ (leaves v ++ post)).getD ((pre.length : Int) + ravel s idx).toNat d) = v := by
  match s, v, h with
  | [], .leaf _, _ => simp [Tensor.toNestedAux, leaves, ravel]
  | a :: ss, .node l, h =>
    simp only [HasShape] at h
    rw [NonNeg.cons] at hs
    simp only [Tensor.toNestedAux, leaves, Nested.node.injEq, ravel]
    rw [← h.1]
    exact toNestedL_leaves d h.2 hs.2
theorem toNestedL_leaves {l : List (Nested V)} {s : List Int} (d : V) {pre post : List V} (h : HasShapeL s l) (hs : NonNeg s) :
    (irange (l.length : Int)).map (fun i => Tensor.toNestedAux s
      (fun idx => (pre ++ (leavesL l ++ post)).getD ((pre.length : Int) + (i * prod s + ravel s idx)).toNat d)) = l := by
  match l, h with
  | [], _ => simp [irange]
  | x :: xs, h =>
    simp only [HasShapeL] at h
    have hir : irange ((x :: xs).length : Int) = 0 :: (irange (xs.length : Int)).map (· + 1) := by
      simp [irange, List.range_succ_eq_map, Function.comp_def]
    have hlen := HasShape.length_leaves h.1 hs
    have hp := hs.prod_nonneg
    rw [hir]
    simp only [List.map_cons, List.map_map, List.cons.injEq]
    constructor
    · have := toNested_leaves (v := x) d (pre := pre) (post := leavesL xs ++ post) h.1 hs
      simp only [leavesL, List.append_assoc]
      simpa using this
    · have := toNestedL_leaves (l := xs) d (pre := pre ++ leaves x) (post := post) h.2 hs
      rw [← this]
      simp only [this]
      apply (List.map_congr_left _).trans this
      intro i hi
      simp only [Function.comp_def, leavesL, List.append_assoc, List.length_append]
      congr 1
      funext idx
      congr 2
      rw [Int.add_mul]
      push_cast
      omega
end

/-! exact acceptance condition of `array` -/

/-- What a successful run on (part of) a value guarantees. -/
def GoOK (L : Nat → List Int) (dim : Nat) (shape shape' : List Int) : Prop :=
  shape <+: shape' ∧ (∀ d, ∀ n ∈ L d, shape'[dim + d]? = some n) ∧
  (∀ k m, shape'[k]? = some m → shape[k]? = some m ∨ ∃ d, k = dim + d ∧ m ∈ L d)

/-- What a failing run guarantees. -/
def GoBad (L : Nat → List Int) (dim : Nat) (shape : List Int) : Prop :=
  ∃ d n m, n ∈ L d ∧ n ≠ m ∧ (shape[dim + d]? = some m ∨ m ∈ L d)

theorem prefix_getElem? {l m : List Int} {k : Nat} {v : Int} (h : l <+: m) (hk : l[k]? = some v) : m[k]? = some v := by
  obtain ⟨t, rfl⟩ := h
  have : k < l.length := by
    rcases Nat.lt_or_ge k l.length with h | h
    · exact h
    · rw [List.getElem?_eq_none h] at hk; cases hk
  rw [List.getElem?_append_left this]; exact hk

theorem geti_eq_of_lt {l : List Int} {k : Nat} (h : k < l.length) : l[k]? = some (geti l k) := by
  rw [geti_eq_getElem h]; exact List.getElem?_eq_getElem h

mutual
theorem arrayGo_spec (v : Nested V) (dim : Nat) (shape : List Int) (flat : List V) (hd : dim ≤ shape.length) :
    (∃ shape' flat', ND.arrayGo v dim (shape, flat) = .ok (shape', flat') ∧ GoOK (fun d => lensAt d v) dim shape shape') ∨
    (ND.arrayGo v dim (shape, flat) = .error .notHomogeneous ∧ GoBad (fun d => lensAt d v) dim shape) := by
  match v with
  | .leaf x =>
    left
    exact ⟨shape, flat ++ [x], by simp [ND.arrayGo, pure, Except.pure], List.prefix_refl _,
      by intro d n hn; cases d <;> simp [lensAt] at hn, fun k m h => Or.inl h⟩
  | .node l =>
    simp only [ND.arrayGo]
    by_cases h1 : shape.length = dim
    · rw [if_pos h1]
      have hlen : (shape ++ [(l.length : Int)])[dim]? = some (l.length : Int) := by
        rw [← h1]; simp
      rcases arrayGoL_spec l (dim + 1) (shape ++ [(l.length : Int)]) flat (by simp; omega) with
        ⟨s', f', e, hp, hL, hnew⟩ | ⟨e, hbad⟩
      · left
        refine ⟨s', f', e, ?_, ?_, ?_⟩
        · exact (List.prefix_append _ _).trans hp
        · intro d n hn
          cases d with
          | zero => simp only [lensAt, List.mem_singleton] at hn; subst hn; exact prefix_getElem? hp hlen
          | succ d => have := hL d n hn; rwa [show dim + 1 + d = dim + (d + 1) by omega] at this
        · intro k m hk
          rcases hnew k m hk with h | ⟨d, rfl, hm⟩
          · by_cases hkl : k < shape.length
            · left; rwa [List.getElem?_append_left hkl] at h
            · right
              have : k = shape.length := by
                rcases Nat.lt_or_ge k (shape ++ [(l.length : Int)]).length with h' | h'
                · simp at h'; omega
                · rw [List.getElem?_eq_none h'] at h; cases h
              refine ⟨0, by omega, ?_⟩
              rw [show k = dim by omega, hlen] at h
              simp [lensAt]; exact (Option.some.inj h).symm
          · right; exact ⟨d + 1, by omega, hm⟩
      · right
        refine ⟨e, ?_⟩
        obtain ⟨d, n, m, hn, hne, hm⟩ := hbad
        refine ⟨d + 1, n, m, hn, hne, ?_⟩
        rcases hm with hm | hm
        · exfalso
          rw [List.getElem?_eq_none (by simp; omega)] at hm; cases hm
        · exact Or.inr hm
    · rw [if_neg h1]
      have hdl : dim < shape.length := by omega
      by_cases h2 : (l.length : Int) ≠ geti shape dim
      · rw [if_pos h2]
        right
        exact ⟨rfl, 0, (l.length : Int), geti shape dim, by simp [lensAt], h2, Or.inl (geti_eq_of_lt hdl)⟩
      · rw [if_neg h2]
        have h2 : (l.length : Int) = geti shape dim := Classical.not_not.1 h2
        rcases arrayGoL_spec l (dim + 1) shape flat (by omega) with ⟨s', f', e, hp, hL, hnew⟩ | ⟨e, hbad⟩
        · left
          refine ⟨s', f', e, hp, ?_, ?_⟩
          · intro d n hn
            cases d with
            | zero =>
              simp only [lensAt, List.mem_singleton] at hn; subst hn
              exact prefix_getElem? hp (by rw [h2]; exact geti_eq_of_lt hdl)
            | succ d => have := hL d n hn; rwa [show dim + 1 + d = dim + (d + 1) by omega] at this
          · intro k m hk
            rcases hnew k m hk with h | ⟨d, rfl, hm⟩
            · exact Or.inl h
            · right; exact ⟨d + 1, by omega, hm⟩
        · right
          refine ⟨e, ?_⟩
          obtain ⟨d, n, m, hn, hne, hm⟩ := hbad
          refine ⟨d + 1, n, m, hn, hne, ?_⟩
          rcases hm with hm | hm
          · left; rwa [show dim + 1 + d = dim + (d + 1) by omega] at hm
          · exact Or.inr hm
theorem arrayGoL_spec (l : List (Nested V)) (dim : Nat) (shape : List Int) (flat : List V) (hd : dim ≤ shape.length) :
    (∃ shape' flat', ND.arrayGoL l dim (shape, flat) = .ok (shape', flat') ∧ GoOK (fun d => lensAtL d l) dim shape shape') ∨
    (ND.arrayGoL l dim (shape, flat) = .error .notHomogeneous ∧ GoBad (fun d => lensAtL d l) dim shape) := by
  match l with
  | [] =>
    left
    exact ⟨shape, flat, by simp [ND.arrayGoL, pure, Except.pure], List.prefix_refl _,
      by intro d n hn; cases d <;> simp [lensAtL] at hn, fun k m h => Or.inl h⟩
  | x :: xs =>
    simp only [ND.arrayGoL]
    have mem : ∀ d n, n ∈ lensAtL d (x :: xs) ↔ n ∈ lensAt d x ∨ n ∈ lensAtL d xs := by
      intro d n; cases d <;> simp [lensAtL]
    rcases arrayGo_spec x dim shape flat hd with ⟨s', f', e, hp, hL, hnew⟩ | ⟨e, hbad⟩
    · rw [e]
      simp only [bind, Except.bind]
      rcases arrayGoL_spec xs dim s' f' (by have := hp.length_le; omega) with ⟨s2, f2, e2, hp2, hL2, hnew2⟩ | ⟨e2, hbad⟩
      · left
        refine ⟨s2, f2, e2, hp.trans hp2, ?_, ?_⟩
        · intro d n hn
          rcases (mem d n).1 hn with h | h
          · exact prefix_getElem? hp2 (hL d n h)
          · exact hL2 d n h
        · intro k m hk
          rcases hnew2 k m hk with h | ⟨d, rfl, hm⟩
          · rcases hnew k m h with h | ⟨d, rfl, hm⟩
            · exact Or.inl h
            · exact Or.inr ⟨d, rfl, (mem d m).2 (Or.inl hm)⟩
          · exact Or.inr ⟨d, rfl, (mem d m).2 (Or.inr hm)⟩
      · right
        refine ⟨e2, ?_⟩
        obtain ⟨d, n, m, hn, hne, hm⟩ := hbad
        refine ⟨d, n, m, (mem d n).2 (Or.inr hn), hne, ?_⟩
        rcases hm with hm | hm
        · rcases hnew _ m hm with h | ⟨d', hd', hm'⟩
          · exact Or.inl h
          · right
            rw [show d = d' by omega]
            exact (mem d' m).2 (Or.inl hm')
        · exact Or.inr ((mem d m).2 (Or.inr hm))
    · right
      rw [e]
      refine ⟨rfl, ?_⟩
      obtain ⟨d, n, m, hn, hne, hm⟩ := hbad
      exact ⟨d, n, m, (mem d n).2 (Or.inl hn), hne, hm.imp id (fun h => (mem d m).2 (Or.inl h))⟩
end

/-- `array` accepts exactly the nested lists whose lists at equal depth have equal lengths. -/
theorem array_accepts_iff (A : Scalar V) (g : Graph V) (v : Nested V) :
    (∃ r, ND.array A g v = .ok r) ↔ UniformLengths v := by
  unfold ND.array
  rcases arrayGo_spec v 0 [] [] (by simp) with ⟨s', f', e, hp, hL, hnew⟩ | ⟨e, d, n, m, hn, hne, hm⟩
  · rw [e]
    refine ⟨fun _ d a ha b hb => ?_, fun _ => ⟨_, rfl⟩⟩
    have h1 := hL d a ha
    have h2 := hL d b hb
    rw [h1] at h2
    exact Option.some.inj h2
  · rw [e]
    refine ⟨fun ⟨r, hr⟩ => by simp [bind, Except.bind] at hr, fun hu => ?_⟩
    rcases hm with hm | hm
    · simp at hm
    · exact absurd (hu d n hn m hm) hne

/-- Rectangular lists have uniform lengths. -/
theorem Rect.uniform {v : Nested V} (h : Rect v) : UniformLengths v := by
  have e := arrayGo_new v [] [] h
  rcases arrayGo_spec v 0 [] [] (by simp) with ⟨s', f', e', hp, hL, hnew⟩ | ⟨e', _⟩
  · intro d a ha b hb
    have h1 := hL d a ha
    have h2 := hL d b hb
    rw [h1] at h2
    exact Option.some.inj h2
  · rw [List.length_nil] at e; rw [e'] at e; cases e

end Whale
