import Verif.Proofs.WriterB
import Verif.Proofs.ParseProg
/-
Indentation: C and CUDA do not care, Python does.
-/
namespace Whale
open LangSpec Text Syntax

/-- Where a line of C starts does not matter. -/
theorem lex_indent {L : Lang} (hL : L ≠ .python) : ∀ (s : Str) (a b : Nat), lexGo L (.indent a) s = lexGo L (.indent b) s
  | [], a, b => rfl
  | c :: s, a, b => by
    simp only [lexGo, step, if_neg hL]
    split
    · rfl
    · split
      · exact congrArg _ (lex_indent hL s _ _)
      · rfl

theorem lex_spaces {L : Lang} : ∀ (k a : Nat) (s : Str), lexGo L (.indent a) (List.replicate k ' ' ++ s) = lexGo L (.indent (a + k)) s
  | 0, a, s => rfl
  | k + 1, a, s => by
    rw [List.replicate_succ, List.cons_append]
    simp only [lexGo, step]
    rw [if_neg (by decide), if_pos trivial]
    simp only [List.nil_append]
    rw [lex_spaces k (a + 1) s, show a + 1 + k = a + (k + 1) by omega]

/-- A newline ends every token. -/
theorem lex_newline (L : Lang) : ∀ (s : Str) (p : Pend), ∃ T, ∀ r, lexGo L p (s ++ '\n' :: r) = T ++ lexGo L (.indent 0) r
  | [], p => by
    refine ⟨(step L p '\n').1, fun r => ?_⟩
    have : (step L p '\n').2 = .indent 0 := by cases p <;> simp [step]
    simp only [List.nil_append, lexGo, this]
  | c :: s, p => by
    obtain ⟨T, h⟩ := lex_newline L s (step L p c).2
    exact ⟨(step L p c).1 ++ T, fun r => by simp only [List.cons_append, lexGo, h, List.append_assoc]⟩

theorem lex_shift {L : Lang} (hL : L ≠ .python) (j : Nat) : ∀ ls : List Str, lex L (join ['\n'] (ls.map (Gen.shift j))) = lex L (join ['\n'] ls)
  | [] => rfl
  | [a] => by
    show lexGo L (.indent 0) (List.replicate _ ' ' ++ a) = _
    rw [lex_spaces]
    exact lex_indent hL _ _ _
  | a :: b :: r => by
    have ih := lex_shift hL j (b :: r)
    unfold lex at ih ⊢
    rw [List.map_cons, List.map_cons, show ∀ x y : Str, ∀ l, join ['\n'] (x :: y :: l) = x ++ '\n' :: join ['\n'] (y :: l) from fun x y l => by simp [join],
      show ∀ x y : Str, ∀ l, join ['\n'] (x :: y :: l) = x ++ '\n' :: join ['\n'] (y :: l) from fun x y l => by simp [join]]
    obtain ⟨T, h⟩ := lex_newline L a (.indent 0)
    rw [h, ← ih, List.map_cons]
    show lexGo L (.indent 0) (List.replicate _ ' ' ++ a ++ _) = _
    rw [List.append_assoc, lex_spaces, lex_indent hL _ _ 0, h]

theorem parse_shift {L : Lang} (hL : L ≠ .python) (j : Nat) (ls : List Str) : parse L (join ['\n'] (ls.map (Gen.shift j))) = parse L (join ['\n'] ls) := by
  unfold parse
  rw [lex_shift hL]

/-- Python refuses a file whose first line is indented. -/
theorem parse_indented {i : Nat} (hi : 0 < i) {ls : List Str} (h : imports .python <+: ls) : parse .python (join ['\n'] (ls.map (Gen.shift i))) = none := by
  obtain ⟨r, rfl⟩ := h
  obtain ⟨s, hs⟩ : ∃ s, join ['\n'] (((imports .python) ++ r).map (Gen.shift i)) = List.replicate (4 * i) ' ' ++ ('i' :: s) := by
    cases r with
    | nil => exact ⟨"mport math".toList, rfl⟩
    | cons b r => exact ⟨"mport math".toList ++ ['\n'] ++ join ['\n'] ((b :: r).map (Gen.shift i)), by simp [imports, Gen.shift, join]⟩
  unfold parse
  rw [if_pos rfl, hs]
  unfold lex
  rw [lex_spaces, Nat.zero_add]
  simp only [lexGo, step]
  rw [if_neg (by decide), if_neg (by decide), if_pos trivial]
  simp only [List.cons_append]
  obtain ⟨m, hm⟩ : ∃ m, 4 * i = m + 1 := ⟨4 * i - 1, by omega⟩
  rw [hm]
  unfold pyProg
  rfl

end Whale
