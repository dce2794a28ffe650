import Verif.Model.Str
import Verif.Proofs.KeyText
import Verif.Props.Session
/-
Printing arrays.
-/
namespace Whale
open Hist Mat
variable {V : Type}

/-- Printed numbers can be told apart when something follows that cannot belong to a number, and do not look like lists. -/
structure Readable (num : V → List Char) : Prop where
  inj : ∀ v v' r r', Delim r → Delim r' → num v ++ r = num v' ++ r' → v = v' ∧ r = r'
  head : ∀ v, ∃ c cs, num v = c :: cs ∧ c ≠ '[' ∧ c ≠ ']'

theorem readable_int : Readable intText := by
  refine ⟨fun v v' r r' hr hr' h => intText_delim hr hr' h, fun v => ?_⟩
  obtain ⟨c, cs, h, hc⟩ := intText_head v
  refine ⟨c, cs, h, ?_, ?_⟩ <;> (rintro rfl; rcases hc with hc | hc <;> exact absurd hc (by decide))

theorem moreText_delim (num : V → List Char) (l : List (Nested V)) (r : List Char) : Delim (moreText num l ++ ']' :: r) := by
  cases l with
  | nil => rw [moreText]; intro c h; simp at h; subst h; decide
  | cons x l => rw [moreText]; exact Py.delim_comma _

theorem listText_ne_close {num : V → List Char} (hn : Readable num) (x : Nested V) (r r' : List Char) : listText num x ++ r ≠ ']' :: r' := by
  intro h
  match x with
  | .leaf v => obtain ⟨c, cs, e, _, hc⟩ := hn.head v; rw [listText, e] at h; exact hc (List.cons.inj h).1
  | .node [] => rw [listText] at h; exact absurd (List.cons.inj h).1 (by decide)
  | .node (x :: xs) => rw [listText] at h; exact absurd (List.cons.inj h).1 (by decide)

theorem text_nil (num : V → List Char) (r : List Char) : listText num (.node []) ++ r = '[' :: ']' :: r := by simp [listText]
theorem text_cons (num : V → List Char) (x : Nested V) (xs : List (Nested V)) (r : List Char) : listText num (.node (x :: xs)) ++ r = '[' :: (listText num x ++ (moreText num xs ++ ']' :: r)) := by
  simp [listText]

mutual
theorem listText_inj {num : V → List Char} (hn : Readable num) : ∀ (x x' : Nested V) (r r' : List Char), Delim r → Delim r' → listText num x ++ r = listText num x' ++ r' → x = x' ∧ r = r'
  | .leaf v, x', r, r', hr, hr', h => by
    match x' with
    | .leaf v' => rw [listText, listText] at h; obtain ⟨h1, h2⟩ := hn.inj _ _ _ _ hr hr' h; exact ⟨by rw [h1], h2⟩
    | .node [] => obtain ⟨c, cs, e, hc, _⟩ := hn.head v; rw [text_nil, listText, e] at h; exact absurd (List.cons.inj h).1 hc
    | .node (y :: ys) => obtain ⟨c, cs, e, hc, _⟩ := hn.head v; rw [text_cons, listText, e] at h; exact absurd (List.cons.inj h).1 hc
  | .node [], x', r, r', hr, hr', h => by
    match x' with
    | .leaf v => obtain ⟨c, cs, e, hc, _⟩ := hn.head v; rw [text_nil, listText, e] at h; exact absurd (List.cons.inj h).1.symm hc
    | .node [] => rw [text_nil, text_nil] at h; exact ⟨rfl, (List.cons.inj (List.cons.inj h).2).2⟩
    | .node (y :: ys) => rw [text_nil, text_cons] at h; exact absurd (List.cons.inj h).2.symm (listText_ne_close hn _ _ _)
  | .node (x :: xs), x', r, r', hr, hr', h => by
    match x' with
    | .leaf v => obtain ⟨c, cs, e, hc, _⟩ := hn.head v; rw [text_cons, listText, e] at h; exact absurd (List.cons.inj h).1.symm hc
    | .node [] => rw [text_nil, text_cons] at h; exact absurd (List.cons.inj h).2 (listText_ne_close hn _ _ _)
    | .node (y :: ys) =>
      rw [text_cons, text_cons] at h
      obtain ⟨h1, h2⟩ := listText_inj hn x y _ _ (moreText_delim _ _ _) (moreText_delim _ _ _) (List.cons.inj h).2
      obtain ⟨h3, h4⟩ := moreText_inj hn xs ys r r' h2
      exact ⟨by rw [h1, h3], h4⟩
theorem moreText_inj {num : V → List Char} (hn : Readable num) : ∀ (l l' : List (Nested V)) (r r' : List Char), moreText num l ++ ']' :: r = moreText num l' ++ ']' :: r' → l = l' ∧ r = r'
  | [], [], r, r', h => by rw [moreText] at h; exact ⟨rfl, (List.cons.inj h).2⟩
  | [], x' :: l', r, r', h => by rw [moreText, moreText] at h; simp at h
  | x :: l, [], r, r', h => by rw [moreText, moreText] at h; simp at h
  | x :: l, x' :: l', r, r', h => by
    simp only [moreText, List.append_assoc, List.cons_append, List.cons.injEq, true_and] at h
    obtain ⟨h1, h2⟩ := listText_inj hn x x' _ _ (moreText_delim _ _ _) (moreText_delim _ _ _) h
    obtain ⟨h3, h4⟩ := moreText_inj hn l l' r r' h2
    exact ⟨by rw [h1, h3], h4⟩
end

/-- With data in host memory, `tolist` changes nothing, and printing shows its result. -/
theorem str_host {b : Backend V} {w : World V} (h : WInv b w) {a : Nat} (ha : a < w.g.length) {data : List V} (hd : cpuBuf w (base w.g a) = some data) (num : V → List Char) :
    ∃ l, tolist b w a = .ok (l, w) ∧ str num w a = .ok (listText num l) := by
  obtain ⟨l, cpu, ev, t, _⟩ := tolist_ok h ha (.inl (by rw [hd]; rfl))
  unfold tolist ensureCpu at t
  simp only [hd, bind, Except.bind] at t
  cases hl : ND.toNdlist data (w.g.shape a) (w.g.strides a) (w.g.offset a) with
  | error e => rw [hl] at t; cases t
  | ok l' =>
    refine ⟨l', ?_, ?_⟩
    · unfold tolist ensureCpu; simp only [hd, bind, Except.bind, hl]; rfl
    · unfold str; simp only [hd, hl, bind, Except.bind]; rfl

/-- After `tolist` has returned, the data are in host memory. -/
theorem tolist_host {b : Backend V} {w w1 : World V} {a : Nat} {l : Nested V} (h : tolist b w a = .ok (l, w1)) : ∃ data, cpuBuf w1 (base w1.g a) = some data := by
  unfold tolist at h
  obtain ⟨w', h1, h⟩ := except_bind_ok h
  cases hc : cpuBuf w' (base w'.g a) with
  | none => rw [hc] at h; cases h
  | some data =>
    rw [hc] at h
    obtain ⟨l', h2, h⟩ := except_bind_ok h
    cases h
    exact ⟨data, hc⟩

end Whale
