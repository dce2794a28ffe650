import Verif.Spec.Syntax
import Verif.Proofs.Names
import Verif.Proofs.TextTree
/-
The tokens of printed expressions and lines.
-/
namespace Whale.Syntax
open Whale LangSpec

/-- Characters that end every name, number and symbol before them. -/
def hardChars : List Char := [' ', '(', ')', '[', ']', ';', ',', ':', '\n']

def Hard (r : Str) : Prop := r = [] ∨ ∃ c cs, r = c :: cs ∧ c ∈ hardChars

theorem hard_cons {c : Char} (h : c ∈ hardChars) (cs : Str) : Hard (c :: cs) := .inr ⟨c, cs, rfl, h⟩

theorem hard_not_word : ∀ c ∈ hardChars, wordChar c = false ∧ (c == '.') = false := by decide

theorem hard_not_long (L : Lang) : ∀ c ∈ hardChars, ∀ t ∈ (longSyms L).map String.toList, t.getLast? ≠ some c := by
  cases L <;> decide +kernel

theorem step_hard_sym {L : Lang} {s : Str} {c : Char} (h : c ∈ hardChars) : s ++ [c] ∉ (longSyms L).map String.toList := by
  intro hm
  exact hard_not_long L c h _ hm (by simp)

/-- Not inside a string, a directive or the indentation. -/
def Pend.plain : Pend → Bool
  | .none | .word _ | .num _ | .sym _ => true
  | _ => false

theorem lex_hard {L : Lang} {p : Pend} (hp : p.plain = true) {r : Str} (h : Hard r) : lexGo L p r = flush p ++ lexGo L .none r := by
  rcases h with rfl | ⟨c, cs, rfl, hc⟩
  · simp [lexGo, flush]
  · have hw := hard_not_word c hc
    cases p with
    | none => simp [flush]
    | word s => by_cases hn : c = '\n' <;> simp [lexGo, step, hn, flush, hw.1]
    | num s => by_cases hn : c = '\n' <;> simp [lexGo, step, hn, flush, hw.1, hw.2]
    | sym s =>
      have := step_hard_sym (L := L) (s := s) hc
      by_cases hn : c = '\n'
      · simp [lexGo, step, hn, flush]
      · simp only [lexGo, step, hn, if_false, this, flush, List.nil_append]
    | indent n => simp [Pend.plain] at hp
    | str n => simp [Pend.plain] at hp
    | directive n => simp [Pend.plain] at hp

/-- The text `s` has the tokens `ts`, before anything that starts with a hard character. -/
def Lx (L : Lang) (s : Str) (ts : List Tok) : Prop := ∀ r, Hard r → lexGo L .none (s ++ r) = ts ++ lexGo L .none r

theorem begin_word {c : Char} (h : wordChar c = true) (hd : c.isDigit = false) : begin_ c = .word [c] := by
  have : c ≠ ' ' := by rintro rfl; revert h; decide
  simp [begin_, this, h, hd]

theorem begin_digit {c : Char} (hd : c.isDigit = true) : begin_ c = .num [c] := by
  have : c ≠ ' ' := by rintro rfl; revert hd; decide
  simp [begin_, this, hd]

theorem step_none {L : Lang} {c : Char} (h : c ≠ '\n') : step L .none c = ([], begin_ c) := by simp [step, h]

theorem lex_word_go {L : Lang} : ∀ (cs acc r : Str), (∀ c ∈ cs, wordChar c = true) → lexGo L (.word acc) (cs ++ r) = lexGo L (.word (acc ++ cs)) r
  | [], acc, r, _ => by simp
  | c :: cs, acc, r, h => by
    have hc := h c List.mem_cons_self
    have hn : c ≠ '\n' := by rintro rfl; revert hc; decide
    rw [List.cons_append, lexGo]
    simp only [step, hn, if_false, hc, if_true, List.nil_append]
    rw [lex_word_go cs _ r (fun c h' => h c (List.mem_cons_of_mem _ h'))]
    simp

theorem digit_word {c : Char} (h : c.isDigit = true) : wordChar c = true := by
  simp [wordChar, Char.isAlphanum, h]

theorem lex_num_go {L : Lang} : ∀ (cs acc r : Str), (∀ c ∈ cs, c.isDigit = true) → lexGo L (.num acc) (cs ++ r) = lexGo L (.num (acc ++ cs)) r
  | [], acc, r, _ => by simp
  | c :: cs, acc, r, h => by
    have hc := digit_word (h c List.mem_cons_self)
    have hn : c ≠ '\n' := by rintro rfl; revert hc; decide
    rw [List.cons_append, lexGo]
    simp only [step, hn, if_false, hc, if_true, List.nil_append, Bool.true_or]
    rw [lex_num_go cs _ r (fun c h' => h c (List.mem_cons_of_mem _ h'))]
    simp

/-- A name: word characters, the first not a digit. -/
def IsWord (s : Str) : Prop := ∃ c cs, s = c :: cs ∧ wordChar c = true ∧ c.isDigit = false ∧ ∀ c ∈ cs, wordChar c = true

theorem IsWord.lexGo {L : Lang} {s : Str} (h : IsWord s) (r : Str) : lexGo L .none (s ++ r) = lexGo L (.word s) r := by
  obtain ⟨c, cs, rfl, h1, h2, h3⟩ := h
  have hn : c ≠ '\n' := by rintro rfl; revert h1; decide
  rw [List.cons_append, Syntax.lexGo, step_none hn, begin_word h1 h2, List.nil_append, lex_word_go cs _ r h3]
  rfl

theorem Lx.word {L : Lang} {s : Str} (h : IsWord s) : Lx L s [.word s] := by
  intro r hr
  rw [h.lexGo, lex_hard rfl hr]; rfl

theorem digits_ne (n : Nat) : Nat.toDigits 10 n ≠ [] := by simp

theorem digits_all (n : Nat) : ∀ c ∈ Nat.toDigits 10 n, c.isDigit = true := fun _ h => Nat.isDigit_of_mem_toDigits (b := 10) (n := n) (by decide) (by decide) h

theorem lex_digits {L : Lang} (n : Nat) (r : Str) : lexGo L .none (Nat.toDigits 10 n ++ r) = lexGo L (.num (Nat.toDigits 10 n)) r := by
  obtain ⟨c, cs, h⟩ := List.exists_cons_of_ne_nil (digits_ne n)
  have hall := digits_all n
  rw [h] at hall ⊢
  have hc := hall c List.mem_cons_self
  have hn : c ≠ '\n' := by rintro rfl; revert hc; decide
  rw [List.cons_append, lexGo, step_none hn, begin_digit hc, List.nil_append, lex_num_go cs _ r (fun c h' => hall c (List.mem_cons_of_mem _ h'))]
  rfl

theorem Lx.digits (L : Lang) (n : Nat) : Lx L (Nat.toDigits 10 n) [.num (Nat.toDigits 10 n)] := by
  intro r hr
  rw [lex_digits, lex_hard rfl hr]; rfl

theorem minus_digit (L : Lang) {c : Char} (h : c.isDigit = true) : ['-'] ++ [c] ∉ (longSyms L).map String.toList := by
  intro hm
  have : ∀ t ∈ (longSyms L).map String.toList, ∀ c, t = ['-', c] → c.isDigit = false := by
    have : ∀ t ∈ (longSyms L).map String.toList, (match t with | ['-', c] => c.isDigit | _ => false) = false := by cases L <;> decide +kernel
    intro t ht c e
    subst e
    exact this _ ht
  rw [this _ hm c rfl] at h; cases h

theorem lex_minus {L : Lang} (n : Nat) (r : Str) : lexGo L .none ('-' :: (Nat.toDigits 10 n ++ r)) = .sym ['-'] :: lexGo L .none (Nat.toDigits 10 n ++ r) := by
  obtain ⟨c, cs, h⟩ := List.exists_cons_of_ne_nil (digits_ne n)
  have hall := digits_all n
  rw [h] at hall ⊢
  have hc := hall c List.mem_cons_self
  have hn : c ≠ '\n' := by rintro rfl; revert hc; decide
  have hm := minus_digit L hc
  rw [List.cons_append, lexGo, step_none (by decide), List.nil_append, show begin_ '-' = .sym ['-'] by decide, lexGo]
  simp only [step, hn, if_false, hm]
  rw [lexGo, step_none hn]
  rfl

def intToks (c : Int) : List Tok := if c < 0 then [.sym ['-'], .num (Nat.toDigits 10 c.natAbs)] else [.num (Nat.toDigits 10 c.natAbs)]

theorem Lx.int (L : Lang) (c : Int) : Lx L (intText c) (intToks c) := by
  intro r hr
  unfold intText intToks
  split
  · rw [List.cons_append, lex_minus, Lx.digits L _ r hr]; rfl
  · exact Lx.digits L _ r hr

theorem lex_open {L : Lang} {c : Char} (h : c = '(' ∨ c = '[' ∨ c = ')' ∨ c = ']' ∨ c = ';' ∨ c = ',' ∨ c = '{' ∨ c = '}') (r : Str) :
    lexGo L .none (c :: r) = .sym [c] :: lexGo L .none r := by
  have hb : begin_ c = .sym [c] := by rcases h with h | h | h | h | h | h | h | h <;> subst h <;> decide
  have hn : c ≠ '\n' := by rcases h with h | h | h | h | h | h | h | h <;> subst h <;> decide
  rw [lexGo, step_none hn, hb, List.nil_append]
  cases r with
  | nil => rfl
  | cons d r =>
    have hl : [c, d] ∉ (longSyms L).map String.toList := by
      have : ∀ t ∈ (longSyms L).map String.toList, t.head? ≠ some '(' ∧ t.head? ≠ some '[' ∧ t.head? ≠ some ')' ∧ t.head? ≠ some ']' ∧ t.head? ≠ some ';' ∧ t.head? ≠ some ',' ∧
          t.head? ≠ some '{' ∧ t.head? ≠ some '}' := by cases L <;> decide +kernel
      intro hm
      have := this _ hm
      rcases h with h | h | h | h | h | h | h | h <;> subst h <;> simp at this
    by_cases hd : d = '\n'
    · simp [lexGo, step, hd]
    · simp only [lexGo, step, hd, if_false, hl, List.nil_append, List.cons_append]

theorem lex_space {L : Lang} (r : Str) : lexGo L .none (' ' :: r) = lexGo L .none r := by
  rw [lexGo, step_none (by decide)]; rfl

theorem Lx.paren {L : Lang} {s : Str} {ts : List Tok} (h : Lx L s ts) : Lx L ("(".toList ++ s ++ ")".toList) (.sym ['('] :: (ts ++ [.sym [')']])) := by
  intro r hr
  have : "(".toList ++ s ++ ")".toList ++ r = '(' :: (s ++ (')' :: r)) := by simp
  rw [this, lex_open (by simp), h _ (hard_cons (by decide) _), lex_open (by simp)]
  simp

theorem Lx.index {L : Lang} {a s : Str} {ta ts : List Tok} (ha : Lx L a ta) (h : Lx L s ts) : Lx L (LangSpec.index a s) (ta ++ (.sym ['['] :: (ts ++ [.sym [']']]))) := by
  intro r hr
  have : LangSpec.index a s ++ r = a ++ ('[' :: (s ++ (']' :: r))) := by simp [LangSpec.index]
  rw [this, ha _ (hard_cons (by decide) _), lex_open (by simp), h _ (hard_cons (by decide) _), lex_open (by simp)]
  simp

theorem Lx.call {L : Lang} {a s : Str} {ta ts : List Tok} (ha : Lx L a ta) (h : Lx L s ts) : Lx L (a ++ "(".toList ++ s ++ ")".toList) (ta ++ (.sym ['('] :: (ts ++ [.sym [')']]))) := by
  intro r hr
  have : a ++ "(".toList ++ s ++ ")".toList ++ r = a ++ ('(' :: (s ++ (')' :: r))) := by simp
  rw [this, ha _ (hard_cons (by decide) _), lex_open (by simp), h _ (hard_cons (by decide) _), lex_open (by simp)]
  simp

theorem Lx.comma {L : Lang} {a s : Str} {ta ts : List Tok} (ha : Lx L a ta) (h : Lx L s ts) : Lx L (a ++ ", ".toList ++ s) (ta ++ (.sym [','] :: ts)) := by
  intro r hr
  have : a ++ ", ".toList ++ s ++ r = a ++ (',' :: (' ' :: (s ++ r))) := by simp
  rw [this, ha _ (hard_cons (by decide) _), lex_open (by simp), lex_space, h _ hr]
  simp

/-- An infix operator between spaces. -/
def OpTok (L : Lang) (op : String) (t : Tok) : Prop := ∀ X, lexGo L .none (' ' :: (op.toList ++ (' ' :: X))) = t :: lexGo L .none X

theorem Lx.infx {L : Lang} {a s : Str} {ta ts : List Tok} {op : String} {t : Tok} (ho : OpTok L op t) (ha : Lx L a ta) (h : Lx L s ts) : Lx L (LangSpec.infx op a s) (ta ++ (t :: ts)) := by
  intro r hr
  have : LangSpec.infx op a s ++ r = a ++ (' ' :: (op.toList ++ (' ' :: (s ++ r)))) := by simp [LangSpec.infx]
  rw [this, ha _ (hard_cons (by decide) _), ho, h _ hr]
  simp

theorem opTok_sym (L : Lang) : ∀ op ∈ ["+", "-", "*", "/", "%", "==", ">", ">=", "<", "<=", "=", "+="], OpTok L op (.sym op.toList) := by
  intro op h
  simp only [List.mem_cons, List.not_mem_nil, or_false] at h
  rcases h with rfl | rfl | rfl | rfl | rfl | rfl | rfl | rfl | rfl | rfl | rfl | rfl <;> (intro X; cases L <;> rfl)

theorem opTok_c {L : Lang} (hL : L ≠ .python) : ∀ op ∈ ["&&", "||"], OpTok L op (.sym op.toList) := by
  intro op h
  simp only [List.mem_cons, List.not_mem_nil, or_false] at h
  rcases h with rfl | rfl <;> (intro X; cases L <;> first | exact absurd rfl hL | rfl)

theorem opTok_py : OpTok .python "//" (.sym "//".toList) ∧ OpTok .python "and" (.word "and".toList) ∧ OpTok .python "or" (.word "or".toList) :=
  ⟨fun _ => rfl, fun _ => rfl, fun _ => rfl⟩

/-! ### names are words -/

theorem digits_word (n : Nat) : ∀ c ∈ Nat.toDigits 10 n, wordChar c = true := fun c h => digit_word (digits_all n c h)

theorem isWord_append {s t : Str} (h : IsWord s) (ht : ∀ c ∈ t, wordChar c = true) : IsWord (s ++ t) := by
  obtain ⟨c, cs, rfl, h1, h2, h3⟩ := h
  refine ⟨c, cs ++ t, rfl, h1, h2, ?_⟩
  intro d hd
  rcases List.mem_append.1 hd with hd | hd
  · exact h3 d hd
  · exact ht d hd

theorem isWord_lit {c : Char} {cs : Str} (h : (wordChar c && !c.isDigit && cs.all wordChar) = true) : IsWord (c :: cs) := by
  simp only [Bool.and_eq_true, Bool.not_eq_true', List.all_eq_true] at h
  exact ⟨c, cs, rfl, h.1.1, h.1.2, h.2⟩

theorem loopLetter_word (i : Nat) : IsWord (loopLetter i) := by
  by_cases h : i < 8
  · have := loopLetter_small i h
    simp only [List.mem_cons, List.not_mem_nil, or_false] at this
    rcases this with h | h | h | h | h | h | h | h <;> rw [h] <;> exact isWord_lit (by decide)
  · rw [loopLetter_big h]
    exact isWord_append (s := ['v']) (isWord_lit (by decide)) (digits_word i)

theorem chars_word : ∀ v : VName, IsWord v.chars
  | .loop true p => by
    obtain ⟨c, cs, h, h1, h2, h3⟩ := loopLetter_word p
    refine isWord_append (s := ['r']) (isWord_lit (by decide)) ?_
    intro d hd
    rw [h] at hd
    rcases List.mem_cons.1 hd with rfl | hd
    · exact h1
    · exact h3 d hd
  | .loop false p => loopLetter_word p
  | .splitO v => isWord_append (chars_word v) (by decide)
  | .splitI v => isWord_append (chars_word v) (by decide)
  | .tmp n => isWord_append (s := "tmp".toList) (isWord_lit (by decide)) (digits_word n)
  | .acc => isWord_lit (by decide)
  | .out => isWord_lit (by decide)
  | .arg true i => isWord_append (s := "fnc_".toList) (isWord_lit (by decide)) (digits_word i)
  | .arg false i => isWord_append (s := "buf_".toList) (isWord_lit (by decide)) (digits_word i)

end Whale.Syntax
