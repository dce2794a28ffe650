import Verif.Spec.KeyText
import Verif.Proofs.Names
import Verif.Proofs.Lex
/-
The text of a cache key determines the key.
-/
namespace Whale
open Syntax

namespace Py

theorem plains_iff {l : List Py} : plains l = true ↔ ∀ x ∈ l, x.plain = true := by
  induction l with
  | nil => simp [plains]
  | cons x l ih => simp [plains, ih]

end Py

/-- The text goes on with something that cannot belong to a number. -/
def Delim (r : List Char) : Prop := ∀ c ∈ r.head?, c.isDigit = false

theorem takeWhile_digits {ds r : List Char} (h : ∀ c ∈ ds, c.isDigit = true) (hr : Delim r) : (ds ++ r).takeWhile Char.isDigit = ds := by
  rw [List.takeWhile_append_of_pos h]
  cases r with
  | nil => simp
  | cons c r => have := hr c (by simp); simp [List.takeWhile_cons, this]

theorem digits_delim {m n : Nat} {r r' : List Char} (hr : Delim r) (hr' : Delim r') (h : Nat.toDigits 10 m ++ r = Nat.toDigits 10 n ++ r') : m = n ∧ r = r' := by
  have h1 := congrArg (List.takeWhile Char.isDigit) h
  rw [takeWhile_digits (digits_all m) hr, takeWhile_digits (digits_all n) hr'] at h1
  refine ⟨digits_inj h1, ?_⟩
  rw [h1] at h
  exact List.append_cancel_left h

theorem digits_cons (n : Nat) : ∃ c cs, Nat.toDigits 10 n = c :: cs ∧ c.isDigit = true := by
  cases h : Nat.toDigits 10 n with
  | nil => exact absurd h (by simp)
  | cons c cs => exact ⟨c, cs, rfl, digits_all n c (by simp [h])⟩

theorem intText_delim {i j : Int} {r r' : List Char} (hr : Delim r) (hr' : Delim r') (h : intText i ++ r = intText j ++ r') : i = j ∧ r = r' := by
  unfold intText at h
  obtain ⟨c, cs, hc, hcd⟩ := digits_cons i.natAbs
  obtain ⟨d, ds, hd, hdd⟩ := digits_cons j.natAbs
  split at h <;> split at h
  · simp only [List.cons_append, List.cons.injEq, true_and] at h
    obtain ⟨h1, h2⟩ := digits_delim hr hr' h; exact ⟨by omega, h2⟩
  · rw [hd] at h; simp only [List.cons_append, List.cons.injEq] at h; rw [← h.1] at hdd; exact absurd hdd (by decide)
  · rw [hc] at h; simp only [List.cons_append, List.cons.injEq] at h; rw [h.1] at hcd; exact absurd hcd (by decide)
  · obtain ⟨h1, h2⟩ := digits_delim hr hr' h; exact ⟨by omega, h2⟩

theorem intText_head (i : Int) : ∃ c cs, intText i = c :: cs ∧ (c = '-' ∨ c.isDigit = true) := by
  unfold intText
  obtain ⟨c, cs, hc, hcd⟩ := digits_cons i.natAbs
  split
  · exact ⟨_, _, rfl, .inl rfl⟩
  · exact ⟨c, cs, hc, .inr hcd⟩

/-- Quoted strings without quotes inside. -/
theorem quoted_inj {s s' r r' : List Char} (hs : '\'' ∉ s) (hs' : '\'' ∉ s') (h : s ++ '\'' :: r = s' ++ '\'' :: r') : s = s' ∧ r = r' := by
  induction s generalizing s' with
  | nil =>
    cases s' with
    | nil => simpa using h
    | cons c s' => simp only [List.nil_append, List.cons_append, List.cons.injEq] at h; exact absurd (by simp [← h.1]) hs'
  | cons c s ih =>
    cases s' with
    | nil => simp only [List.nil_append, List.cons_append, List.cons.injEq] at h; exact absurd (by simp [h.1]) hs
    | cons c' s' =>
      simp only [List.cons_append, List.cons.injEq] at h
      obtain ⟨h1, h2⟩ := ih (fun hm => hs (by simp [hm])) (fun hm => hs' (by simp [hm])) h.2
      exact ⟨by rw [h.1, h1], h2⟩

namespace Py

theorem plain_quote {s : List Char} (h : (Py.str s).plain = true) : '\'' ∉ s := by
  intro hm
  simp only [plain, List.all_eq_true] at h
  exact absurd (h _ hm) (by decide)

/-- What a value is, by its first character. -/
def cls (c : Char) : Nat := if c = 'N' then 0 else if c = 'T' then 1 else if c = 'F' then 2 else if c = '\'' then 4 else if c = '(' then 5 else if c = ')' then 6 else 3

/-- What a value is. -/
def kind : Py → Nat
  | .none => 0
  | .bool true => 1
  | .bool false => 2
  | .int _ => 3
  | .str _ => 4
  | .tuple _ => 5

theorem cls_digit {c : Char} (h : c.isDigit = true) : cls c = 3 := by
  unfold cls
  repeat rw [if_neg (by intro e; rw [e] at h; exact absurd h (by decide))]

theorem repr_head (v : Py) : ∃ c cs, v.repr = c :: cs ∧ cls c = v.kind := by
  match v with
  | .none => exact ⟨_, _, rfl, rfl⟩
  | .bool true => exact ⟨_, _, rfl, rfl⟩
  | .bool false => exact ⟨_, _, rfl, rfl⟩
  | .int i =>
    obtain ⟨c, cs, h1, h2⟩ := intText_head i
    refine ⟨c, cs, by rw [repr, h1], ?_⟩
    rcases h2 with h2 | h2
    · rw [h2]; rfl
    · exact cls_digit h2
  | .str s => exact ⟨_, _, by rw [repr], rfl⟩
  | .tuple [] => exact ⟨_, _, by rw [repr]; rfl, rfl⟩
  | .tuple [x] => exact ⟨_, _, by rw [repr], rfl⟩
  | .tuple (x :: y :: ys) => exact ⟨_, _, by rw [repr], rfl⟩

theorem kind_eq {v v' : Py} {r r' : List Char} (h : v.repr ++ r = v'.repr ++ r') : v.kind = v'.kind := by
  obtain ⟨c, cs, h1, h2⟩ := repr_head v
  obtain ⟨c', cs', h1', h2'⟩ := repr_head v'
  rw [h1, h1'] at h
  simp only [List.cons_append, List.cons.injEq] at h
  rw [← h2, ← h2', h.1]

theorem repr_ne_close (v : Py) (r r' : List Char) : v.repr ++ r ≠ ')' :: r' := by
  intro h
  obtain ⟨c, cs, h1, h2⟩ := repr_head v
  rw [h1] at h
  simp only [List.cons_append, List.cons.injEq] at h
  rw [h.1] at h2
  match v with
  | .none | .bool true | .bool false | .int _ | .str _ | .tuple _ => exact absurd h2 (by simp [cls, kind])

theorem delim_comma (r : List Char) : Delim (',' :: r) := by intro c h; simp at h; subst h; decide
theorem delim_close (r : List Char) : Delim (')' :: r) := by intro c h; simp at h; subst h; decide

theorem reprMore_delim (l : List Py) (r : List Char) : Delim (reprMore l ++ ')' :: r) := by
  cases l with
  | nil => rw [reprMore]; exact delim_close r
  | cons x l => rw [reprMore]; exact delim_comma _

theorem repr_nil (r : List Char) : (Py.tuple []).repr ++ r = '(' :: ')' :: r := by simp [repr]
theorem repr_one (x : Py) (r : List Char) : (Py.tuple [x]).repr ++ r = '(' :: (x.repr ++ ',' :: ')' :: r) := by simp [repr]
theorem repr_two (x y : Py) (ys : List Py) (r : List Char) : (Py.tuple (x :: y :: ys)).repr ++ r = '(' :: (x.repr ++ ',' :: ' ' :: (y.repr ++ (reprMore ys ++ ')' :: r))) := by simp [repr]

mutual
theorem repr_inj : ∀ (v v' : Py) (r r' : List Char), v.plain = true → v'.plain = true → Delim r → Delim r' → v.repr ++ r = v'.repr ++ r' → v = v' ∧ r = r'
  | .none, v', r, r', _, _, _, _, h => by
    have hk := kind_eq h
    match v' with
    | .none => exact ⟨rfl, List.append_cancel_left h⟩
    | .bool true | .bool false | .int _ | .str _ | .tuple _ => simp [kind] at hk
  | .bool true, v', r, r', _, _, _, _, h => by
    have hk := kind_eq h
    match v' with
    | .bool true => exact ⟨rfl, List.append_cancel_left h⟩
    | .none | .bool false | .int _ | .str _ | .tuple _ => simp [kind] at hk
  | .bool false, v', r, r', _, _, _, _, h => by
    have hk := kind_eq h
    match v' with
    | .bool false => exact ⟨rfl, List.append_cancel_left h⟩
    | .none | .bool true | .int _ | .str _ | .tuple _ => simp [kind] at hk
  | .int i, v', r, r', _, _, hr, hr', h => by
    have hk := kind_eq h
    match v' with
    | .int j =>
      rw [repr, repr] at h
      obtain ⟨h1, h2⟩ := intText_delim hr hr' h
      exact ⟨by rw [h1], h2⟩
    | .none | .bool true | .bool false | .str _ | .tuple _ => simp [kind] at hk
  | .str s, v', r, r', hp, hp', _, _, h => by
    have hk := kind_eq h
    match v' with
    | .str s' =>
      rw [repr, repr] at h
      simp only [List.cons_append, List.append_assoc, List.nil_append, List.cons.injEq, true_and] at h
      obtain ⟨h1, h2⟩ := quoted_inj (plain_quote hp) (plain_quote hp') h
      exact ⟨by rw [h1], h2⟩
    | .none | .bool true | .bool false | .int _ | .tuple _ => simp [kind] at hk
  | .tuple [], v', r, r', _, _, _, _, h => by
    have hk := kind_eq h
    match v' with
    | .tuple [] => exact ⟨rfl, List.append_cancel_left h⟩
    | .tuple [x'] => rw [repr_nil, repr_one] at h; exact absurd (List.cons.inj h).2.symm (repr_ne_close x' _ _)
    | .tuple (x' :: y' :: ys') => rw [repr_nil, repr_two] at h; exact absurd (List.cons.inj h).2.symm (repr_ne_close x' _ _)
    | .none | .bool true | .bool false | .int _ | .str _ => simp [kind] at hk
  | .tuple [x], v', r, r', hp, hp', _, _, h => by
    have hk := kind_eq h
    match v' with
    | .tuple [] => rw [repr_nil, repr_one] at h; exact absurd (List.cons.inj h).2 (repr_ne_close x _ _)
    | .tuple [x'] =>
      simp only [plain, plains, Bool.and_true] at hp hp'
      rw [repr_one, repr_one] at h
      obtain ⟨h1, h2⟩ := repr_inj x x' _ _ hp hp' (delim_comma _) (delim_comma _) (List.cons.inj h).2
      exact ⟨by rw [h1], by simpa using h2⟩
    | .tuple (x' :: y' :: ys') =>
      simp only [plain, plains, Bool.and_true, Bool.and_eq_true] at hp hp'
      rw [repr_one, repr_two] at h
      obtain ⟨_, h2⟩ := repr_inj x x' _ _ hp hp'.1 (delim_comma _) (delim_comma _) (List.cons.inj h).2
      simp at h2
    | .none | .bool true | .bool false | .int _ | .str _ => simp [kind] at hk
  | .tuple (x :: y :: ys), v', r, r', hp, hp', _, _, h => by
    have hk := kind_eq h
    match v' with
    | .tuple [] => rw [repr_nil, repr_two] at h; exact absurd (List.cons.inj h).2 (repr_ne_close x _ _)
    | .tuple [x'] =>
      simp only [plain, plains, Bool.and_true, Bool.and_eq_true] at hp hp'
      rw [repr_one, repr_two] at h
      obtain ⟨_, h2⟩ := repr_inj x x' _ _ hp.1 hp' (delim_comma _) (delim_comma _) (List.cons.inj h).2
      simp at h2
    | .tuple (x' :: y' :: ys') =>
      simp only [plain, plains, Bool.and_eq_true] at hp hp'
      rw [repr_two, repr_two] at h
      obtain ⟨h1, h2⟩ := repr_inj x x' _ _ hp.1 hp'.1 (delim_comma _) (delim_comma _) (List.cons.inj h).2
      obtain ⟨h3, h4⟩ := repr_inj y y' _ _ hp.2.1 hp'.2.1 (reprMore_delim _ _) (reprMore_delim _ _) (List.cons.inj (List.cons.inj h2).2).2
      obtain ⟨h5, h6⟩ := reprMore_inj ys ys' r r' hp.2.2 hp'.2.2 h4
      exact ⟨by rw [h1, h3, h5], h6⟩
    | .none | .bool true | .bool false | .int _ | .str _ => simp [kind] at hk
theorem reprMore_inj : ∀ (l l' : List Py) (r r' : List Char), plains l = true → plains l' = true → reprMore l ++ ')' :: r = reprMore l' ++ ')' :: r' → l = l' ∧ r = r'
  | [], [], r, r', _, _, h => by
    rw [reprMore] at h; exact ⟨rfl, (List.cons.inj h).2⟩
  | [], x' :: l', r, r', _, _, h => by
    rw [reprMore, reprMore] at h; simp at h
  | x :: l, [], r, r', _, _, h => by
    rw [reprMore, reprMore] at h; simp at h
  | x :: l, x' :: l', r, r', hp, hp', h => by
    simp only [plains, Bool.and_eq_true] at hp hp'
    simp only [reprMore, List.append_assoc, List.append_cancel_left_eq] at h
    obtain ⟨h1, h2⟩ := repr_inj x x' _ _ hp.1 hp'.1 (reprMore_delim _ _) (reprMore_delim _ _) h
    obtain ⟨h3, h4⟩ := reprMore_inj l l' r r' hp.2 hp'.2 h2
    exact ⟨by rw [h1, h3], h4⟩
end

end Py

namespace Mat

theorem opName_inj {a b : Ops} (h : opName a = opName b) : a = b := by
  revert a b
  have key : ∀ a ∈ Ops.all, ∀ b ∈ Ops.all, opName a = opName b → a = b := by decide +kernel
  intro a b
  exact key a (by cases a <;> decide) b (by cases b <;> decide)

theorem dtName_inj {a b : DType} (h : dtName a = dtName b) : a = b := by cases a <;> cases b <;> first | rfl | exact absurd h (by decide)

theorem map_inj {α : Type} {f : α → Py} (hf : ∀ x y, f x = f y → x = y) {l l' : List α} (h : l.map f = l'.map f) : l = l' := List.map_injective_iff.mpr (fun x y => hf x y) h

theorem pyInts_inj {l l' : List Int} (h : pyInts l = pyInts l') : l = l' := by
  unfold pyInts at h
  exact map_inj (f := Py.int) (fun _ _ h => by injection h) (by injection h)

theorem pyVar_inj (v v' : VName × Int) (h : pyVar v = pyVar v') : v = v' := by
  simp only [pyVar, Py.tuple.injEq, List.cons.injEq, Py.str.injEq, Py.int.injEq, and_true] at h
  exact Prod.ext (chars_inj h.1) h.2

theorem ikeyPy_inj : ∀ (k k' : IKey), ikeyPy k = ikeyPy k' → k = k'
  | .idx n e, k', h => by
    cases k' <;> simp [ikeyPy, pyStr] at h
    rw [chars_inj h.1, h.2]
  | .const c, k', h => by
    cases k' <;> simp [ikeyPy, pyStr] at h
    rw [h]
  | .bin op l r, k', h => by
    cases k' <;> simp [ikeyPy, pyStr] at h
    rw [opName_inj h.1, ikeyPy_inj _ _ h.2.1, ikeyPy_inj _ _ h.2.2]

theorem ekeyPy_inj : ∀ (k k' : EKey), ekeyPy k = ekeyPy k' → k = k'
  | .none, k', h => by cases k' <;> simp [ekeyPy] at h; rfl
  | .const c, k', h => by
    cases k' <;> simp [ekeyPy, pyStr] at h
    rw [h]
  | .un op e, k', h => by
    cases k' <;> simp [ekeyPy, pyStr] at h
    rw [opName_inj h.1, ekeyPy_inj _ _ h.2]
  | .bin op l r, k', h => by
    cases k' <;> simp [ekeyPy, pyStr] at h
    rw [opName_inj h.1, ekeyPy_inj _ _ h.2.1, ekeyPy_inj _ _ h.2.2]
  | .red op vs e, k', h => by
    cases k' <;> simp [ekeyPy, pyStr] at h
    rw [opName_inj h.1, map_inj pyVar_inj h.2.1, ekeyPy_inj _ _ h.2.2]
  | .fnc e idx, k', h => by
    cases k' <;> simp [ekeyPy, pyStr] at h
    rw [ekeyPy_inj _ _ h.1, map_inj ikeyPy_inj h.2]
  | .buf id shape strides offset dt idx, k', h => by
    cases k' <;> simp [ekeyPy, pyStr] at h
    obtain ⟨h1, h2, h3, h4, h5, h6⟩ := h
    rw [Int.ofNat.inj h1, pyInts_inj h2, pyInts_inj h3, h4, dtName_inj h5, map_inj ikeyPy_inj h6]

theorem execPy_inj {a b : LoopExec} (h : execPy a = execPy b) : a = b := by
  cases a <;> cases b <;> simp [execPy, pyStr] at h <;> first | rfl | (rw [h]) | skip
  all_goals
    rename_i d d'
    cases d <;> cases d' <;> first | rfl | (exact absurd h (by simp [dimPy, pyStr]))

theorem kindPy_inj {a b : LoopKind} (h : kindPy a = kindPy b) : a = b := by cases a <;> cases b <;> first | rfl | (exact absurd h (by simp [kindPy, pyStr]))

theorem loopPy_inj (a b : VName × Int × LoopKind × LoopExec) (h : loopPy a = loopPy b) : a = b := by
  obtain ⟨a1, a2, a3, a4⟩ := a
  obtain ⟨b1, b2, b3, b4⟩ := b
  simp only [loopPy, Py.tuple.injEq, List.cons.injEq, Py.str.injEq, Py.int.injEq, and_true] at h
  rw [chars_inj h.1, h.2.1, kindPy_inj h.2.2.1, execPy_inj h.2.2.2]

theorem splitPy_inj (a b : VName × Int × Bool) (h : splitPy a = splitPy b) : a = b := by
  obtain ⟨a1, a2, a3⟩ := a
  obtain ⟨b1, b2, b3⟩ := b
  simp only [splitPy, Py.tuple.injEq, List.cons.injEq, Py.str.injEq, Py.int.injEq, Py.bool.injEq, and_true] at h
  rw [chars_inj h.1, h.2.1, h.2.2]

theorem keyPy_inj {k k' : Key} (h : keyPy k = keyPy k') : k = k' := by
  obtain ⟨a1, a2, a3, a4, a5, a6⟩ := k
  obtain ⟨b1, b2, b3, b4, b5, b6⟩ := k'
  simp only [keyPy, skeyPy, Py.tuple.injEq, List.cons.injEq, Py.str.injEq, and_true] at h
  obtain ⟨h1, h2, h3, h4, h5, h6⟩ := h
  rw [map_inj pyVar_inj h1, pyInts_inj h2, dtName_inj h3, ekeyPy_inj _ _ h4, map_inj loopPy_inj h5, map_inj splitPy_inj h6]

/-! ### the strings are plain -/

theorem word_plain {c : Char} (h : wordChar c = true) : plainChar c = true := by
  have hn : (48 ≤ c.toNat ∧ c.toNat ≤ 57) ∨ (65 ≤ c.toNat ∧ c.toNat ≤ 90) ∨ (97 ≤ c.toNat ∧ c.toNat ≤ 122) ∨ c = '_' := by
    simp only [wordChar, Char.isAlphanum, Char.isAlpha, Char.isUpper, Char.isLower, Char.isDigit, Bool.or_eq_true, Bool.and_eq_true, decide_eq_true_eq, beq_iff_eq,
      ge_iff_le, UInt32.le_iff_toNat_le] at h
    simp only [Char.toNat]
    rcases h with ((⟨h1, h2⟩ | ⟨h1, h2⟩) | ⟨h1, h2⟩) | h
    · right; left; exact ⟨h1, h2⟩
    · right; right; left; exact ⟨h1, h2⟩
    · left; exact ⟨h1, h2⟩
    · right; right; right; exact h
  rcases hn with h | h | h | h
  · exact plain_range (by omega) (by omega) (by omega)
  · exact plain_range (by omega) (by omega) (by omega)
  · exact plain_range (by omega) (by omega) (by omega)
  · rw [h]; decide
where
  plain_range {c : Char} (h : 32 ≤ c.toNat ∧ c.toNat ≤ 126) (h1 : c.toNat ≠ 39) (h2 : c.toNat ≠ 92) : plainChar c = true := by
    simp only [plainChar, Bool.and_eq_true, decide_eq_true_eq, bne_iff_ne, ne_eq]
    refine ⟨⟨h, ?_⟩, ?_⟩
    · rintro rfl; exact h1 rfl
    · rintro rfl; exact h2 rfl

theorem chars_plain (v : VName) : (Py.str v.chars).plain = true := by
  simp only [Py.plain, List.all_eq_true]
  obtain ⟨c, cs, h, h1, _, h2⟩ := chars_word v
  intro x hx
  rw [h] at hx
  rcases List.mem_cons.mp hx with rfl | hx
  · exact word_plain h1
  · exact word_plain (h2 x hx)

theorem opName_plain (o : Ops) : (Py.str (opName o)).plain = true := by cases o <;> decide
theorem dtName_plain (d : DType) : (Py.str (dtName d)).plain = true := by cases d <;> decide

theorem plain_map {α : Type} {f : α → Py} (h : ∀ x, (f x).plain = true) (l : List α) : (Py.tuple (l.map f)).plain = true := by
  rw [Py.plain, Py.plains_iff]
  intro x hx
  obtain ⟨y, _, rfl⟩ := List.mem_map.mp hx
  exact h y

theorem pyInts_plain (l : List Int) : (pyInts l).plain = true := plain_map (fun _ => by simp [Py.plain]) l

theorem pyVar_plain (v : VName × Int) : (pyVar v).plain = true := by
  simp only [pyVar, Py.plain.eq_2, Py.plains, chars_plain, Bool.and_true]; simp [Py.plain]

theorem tuple_plain {l : List Py} (h : ∀ x ∈ l, x.plain = true) : (Py.tuple l).plain = true := by rw [Py.plain, Py.plains_iff]; exact h
theorem int_plain (i : Int) : (Py.int i).plain = true := by simp [Py.plain]
theorem bool_plain (i : Bool) : (Py.bool i).plain = true := by simp [Py.plain]

theorem ikeyPy_plain : ∀ k : IKey, (ikeyPy k).plain = true
  | .idx n e => tuple_plain (by simp [chars_plain, int_plain, pyStr]; decide)
  | .const c => tuple_plain (by simp [int_plain, pyStr]; decide)
  | .bin op l r => tuple_plain (by simp [opName_plain, ikeyPy_plain, pyStr]; decide)

theorem ekeyPy_plain : ∀ k : EKey, (ekeyPy k).plain = true
  | .none => by simp [ekeyPy, Py.plain]
  | .const c => tuple_plain (by simp [int_plain, pyStr]; decide)
  | .un op e => tuple_plain (by simp [opName_plain, ekeyPy_plain, pyStr]; decide)
  | .bin op l r => tuple_plain (by simp [opName_plain, ekeyPy_plain, pyStr]; decide)
  | .red op vs e => tuple_plain (by simp [opName_plain, ekeyPy_plain, pyStr, plain_map pyVar_plain]; decide)
  | .fnc e idx => tuple_plain (by simp [ekeyPy_plain, pyStr, plain_map ikeyPy_plain]; decide)
  | .buf id shape strides offset dt idx => tuple_plain (by simp [int_plain, pyInts_plain, dtName_plain, pyStr, plain_map ikeyPy_plain]; decide)

theorem execPy_plain (e : LoopExec) : (execPy e).plain = true := by
  cases e with
  | unroll f => exact tuple_plain (by simp [int_plain, pyStr]; decide)
  | gpuBlock d => cases d <;> decide
  | gpuThread d => cases d <;> decide
  | sequential => decide
  | parallel => decide
  | vectorize => decide

theorem kindPy_plain (k : LoopKind) : (kindPy k).plain = true := by cases k <;> decide

theorem keyPy_plain (k : Key) : (keyPy k).plain = true := by
  refine tuple_plain ?_
  have h1 : ∀ l, (loopPy l).plain = true := fun l => tuple_plain (by simp [chars_plain, int_plain, kindPy_plain, execPy_plain])
  have h2 : ∀ l, (splitPy l).plain = true := fun l => tuple_plain (by simp [chars_plain, int_plain, bool_plain])
  have h3 : (skeyPy k.sched).plain = true := tuple_plain (by simp [plain_map h1, plain_map h2])
  simp [plain_map pyVar_plain, pyInts_plain, dtName_plain, ekeyPy_plain, h3]

theorem keyText_inj {k k' : Key} (h : keyText k = keyText k') : k = k' :=
  keyPy_inj (Py.repr_inj (keyPy k) (keyPy k') [] [] (keyPy_plain k) (keyPy_plain k') (by simp [Delim]) (by simp [Delim]) (by simpa [keyText] using h)).1

end Mat
end Whale
