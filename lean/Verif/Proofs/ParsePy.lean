import Verif.Proofs.ParseStmt
/-
Printed statements parse back: Python.
-/
namespace Whale
open LangSpec Syntax
namespace Syntax

/-! ### pieces of lines -/

theorem Lx.assign_py {a s : Str} {ta ts : List Tok} (ha : Lx .python a ta) (h : Lx .python s ts) :
    Lx .python (LangSpec.assign .python a s) (ta ++ (.sym ['='] :: ts)) := by
  have : LangSpec.assign .python a s = LangSpec.infx "=" a s := by simp [LangSpec.assign, LangSpec.infx]
  rw [this]
  exact ha.infx (opTok_sym .python "=" (by decide)) h

def rangeToks (n : Int) : List Tok := [.word "range".toList] ++ (.sym ['('] :: (((intToks 0 ++ (.sym [','] :: intToks n)) ++ (.sym [','] :: intToks 1)) ++ [.sym [')']]))

theorem range_pe (n : Int) : PE .python 0 (rangeToks n) (.app (.name "range".toList) (.bin .comma (.bin .comma (litEx 0) (litEx n)) (litEx 1))) := by
  have h1 : PE .python 1 (intToks 0 ++ (.sym [','] :: intToks n)) (.bin .comma (litEx 0) (litEx n)) :=
    PE.bin (q0 := 1) rfl (by decide) ((PU.int _ 0).pe 1) ((PU.int _ n).pe 2) (by omega) (by omega) (by omega) (by omega)
  have h2 : PE .python 0 ((intToks 0 ++ (.sym [','] :: intToks n)) ++ (.sym [','] :: intToks 1)) (.bin .comma (.bin .comma (litEx 0) (litEx n)) (litEx 1)) :=
    PE.bin (q0 := 1) rfl (by decide) h1 ((PU.int _ 1).pe 2) (by omega) (by omega) (by omega) (by omega)
  exact ((PP.name (s := "range".toList) (by decide +kernel)).app h2).pu.pe 0

theorem range_lx (n : Int) : Lx .python ("range".toList ++ "(".toList ++ (intText 0 ++ ", ".toList ++ intText n ++ ", ".toList ++ intText 1) ++ ")".toList) (rangeToks n) :=
  (Lx.word (isWord_lit (by decide))).call (((Lx.int .python 0).comma (Lx.int .python n)).comma (Lx.int .python 1))

theorem Lx.for_py (x : VName) (n : Int) : Lx .python (seqLoop .python x.chars n) (.word "for".toList :: .word x.chars :: .word "in".toList :: (rangeToks n ++ [.sym [':']])) := by
  have h := ((((Lx.word (L := .python) (s := "for".toList) (isWord_lit (by decide))).space (Lx.word (chars_word x))).space (Lx.word (s := "in".toList) (isWord_lit (by decide)))).space (range_lx n)).colon
  have e : seqLoop .python x.chars n = "for".toList ++ " ".toList ++ x.chars ++ " ".toList ++ "in".toList ++ " ".toList ++
      ("range".toList ++ "(".toList ++ (intText 0 ++ ", ".toList ++ intText n ++ ", ".toList ++ intText 1) ++ ")".toList) ++ ":".toList := by
    have : seqLoop .python x.chars n = "for ".toList ++ x.chars ++ " in range(".toList ++ intText 0 ++ ", ".toList ++ intText n ++ ", ".toList ++ intText 1 ++ "):".toList := rfl
    rw [this]
    generalize intText 0 = a, intText n = b, intText 1 = c, x.chars = y
    simp
  rw [e]
  exact h

theorem Lx.if_py {s : Str} {ts : List Tok} (h : Lx .python s ts) : Lx .python (ifStart .python s) (.word "if".toList :: (ts ++ [.sym [':']])) := by
  have e : ifStart .python s = "if".toList ++ " ".toList ++ s ++ ":".toList := by simp [ifStart]
  rw [e]
  exact ((Lx.word (s := "if".toList) (isWord_lit (by decide))).space h).colon

theorem Lx.else_py : Lx .python (else_ .python) [.word "else".toList, .sym [':']] :=
  (Lx.word (s := "else".toList) (isWord_lit (by decide))).colon

theorem Lx.ret_py : Lx .python (ret .python) [.word "return".toList] := Lx.word (s := "return".toList) (isWord_lit (by decide))

/-! ### statements -/

/-- What may follow a statement indented by `n`: the end, a line indented less, or a line as much that is no `else`. -/
def PyNext (n : Nat) (ts : List Tok) : Prop := ts = [] ∨ ∃ m r, ts = .line m :: r ∧ (m < n ∨ (m = n ∧ NotElse r))

theorem PyNext.closed {n : Nat} {ts : List Tok} (h : PyNext n ts) : Closed .python ts := by
  rcases h with rfl | ⟨m, r, rfl, _⟩
  · trivial
  · exact ⟨by simp, by simp, by simp, rfl⟩

/-- The tokens `ts` are the Python statement `s`, indented by `n`. -/
def PS (n : Nat) (s : Stmt) (ts : List Tok) : Prop := ∃ k, k ≤ 2 * ts.length ∧ (s.nonempty = true → ∃ ts', ts = .line n :: ts') ∧ (∀ rest, PyNext n rest → PyNext n (ts ++ rest)) ∧
  ∀ rest m r rest', PyNext n rest → (∀ f ≥ m, pyBlock f n rest = some (r, rest')) → ∀ f ≥ m + k, pyBlock f n (ts ++ rest) = some (s.sx .python r, rest')

/-- What ends the block under a statement indented by `n`. -/
def Dedent (n : Nat) (ts : List Tok) : Prop := ts = [] ∨ ∃ m r, ts = .line m :: r ∧ m ≤ n

theorem PyNext.dedent {n : Nat} {ts : List Tok} (h : PyNext n ts) : Dedent n ts := by
  rcases h with rfl | ⟨m, r, rfl, h | h⟩
  · exact .inl rfl
  · exact .inr ⟨m, r, rfl, by omega⟩
  · exact .inr ⟨m, r, rfl, by omega⟩

theorem pyBlock_end {n : Nat} {rest : List Tok} (h : Dedent n rest) : ∀ f ≥ 1, pyBlock f (n + 4) rest = some (.done, rest) := by
  intro f hf
  obtain ⟨f, rfl⟩ : ∃ f', f = f' + 1 := ⟨f - 1, by omega⟩
  rcases h with rfl | ⟨m, r, rfl, h⟩
  · rw [pyBlock]
  · rw [pyBlock.eq_def]; simp only; rw [if_pos (by omega)]

theorem PS.suite {n : Nat} {s : Stmt} {ts : List Tok} (h : PS (n + 4) s ts) (hn : s.nonempty = true) {rest : List Tok} (hr : Dedent n rest) :
    ∀ f ≥ 2 + 2 * ts.length, pySuite f n (ts ++ rest) = some (s.sx .python .done, rest) := by
  obtain ⟨k, h1, h2, _, h4⟩ := h
  obtain ⟨ts', rfl⟩ := h2 hn
  intro f hf
  obtain ⟨f, rfl⟩ : ∃ f', f = f' + 1 := ⟨f - 1, by omega⟩
  rw [List.cons_append, pySuite, if_pos (by omega), ← List.cons_append]
  refine h4 rest 1 .done rest ?_ (pyBlock_end hr) f (by omega)
  rcases hr with rfl | ⟨m, r, rfl, h⟩
  · exact .inl rfl
  · exact .inr ⟨m, r, rfl, .inl (by omega)⟩

theorem PS.seq {n : Nat} {s t : Stmt} {ts tt : List Tok} (hs : PS n s ts) (ht : PS n t tt) (hs0 : s.nonempty = false → ts = []) : PS n (.seq s t) (ts ++ tt) := by
  obtain ⟨k, a1, a0, a2, a3⟩ := hs
  obtain ⟨l, b1, b0, b2, b3⟩ := ht
  refine ⟨k + l, by simp; omega, fun h => ?_, fun rest h => by rw [List.append_assoc]; exact a2 _ (b2 _ h), fun rest m r rest' hn hr f hf => ?_⟩
  · cases h1 : s.nonempty with
    | true =>
      obtain ⟨ts', rfl⟩ := a0 h1
      exact ⟨_, List.cons_append⟩
    | false =>
      rw [hs0 h1]
      exact b0 (by simpa [Stmt.nonempty, h1] using h)
  · rw [List.append_assoc]
    exact a3 _ (m + l) _ _ (b2 _ hn) (fun f hf => b3 rest m r rest' hn hr f hf) f (by omega)

theorem pyNext_line {n : Nat} {t : Tok} {ts rest : List Tok} (h : t ≠ .word "else".toList) : PyNext n (.line n :: t :: ts ++ rest) :=
  .inr ⟨n, t :: ts ++ rest, rfl, .inr ⟨rfl, by simpa [NotElse] using h⟩⟩

theorem not_keyword {x : VName} {k : String} (hk : k ∈ keywords .python) : x.chars ≠ k.toList := by
  intro e
  have := var_isName .python x
  rw [e] at this
  simp only [isName, Bool.not_eq_true', List.contains_eq_mem, decide_eq_false_iff_not, List.mem_map, not_exists, not_and] at this
  exact this k hk rfl

theorem pyAssign {n : Nat} {q q' : Nat} (x : VName) {tl te : List Tok} {l e : Ex} (hl : PE .python q' (.word x.chars :: tl) l) (h : PE .python q te e)
    {s : Stmt} (hs : ∀ r, s.sx .python r = .assign l e r) : PS n s (.line n :: (.word x.chars :: tl ++ (.sym ['='] :: te))) := by
  refine ⟨1, by simp; omega, fun _ => ⟨_, rfl⟩, fun rest _ => pyNext_line (by simpa using not_keyword (k := "else") (by decide)), fun rest m r rest' hn hr f hf => ?_⟩
  obtain ⟨f, rfl⟩ : ∃ f', f = f' + 1 := ⟨f - 1, by omega⟩
  have e1 : .line n :: (.word x.chars :: tl ++ (.sym ['='] :: te)) ++ rest = .line n :: (.word x.chars :: (tl ++ (.sym ['='] :: (te ++ rest)))) := by simp
  have hE := hl.expression (rest := .sym ['='] :: (te ++ rest)) (closed_sym (by simp) _)
  rw [List.cons_append] at hE
  rw [e1, pyBlock]
  · rw [if_neg (by omega), if_neg (by omega), hE]
    simp only
    rw [h.expression hn.closed]
    simp only [hr f (by omega), andThen, hs]
  · intro ts h'
    simp only [List.cons.injEq, Tok.word.injEq] at h'
    exact absurd h'.1 (not_keyword (k := "return") (by decide))
  · intro y ts h'
    simp only [List.cons.injEq, Tok.word.injEq] at h'
    exact absurd h'.1 (not_keyword (k := "for") (by decide))
  · intro ts h'
    simp only [List.cons.injEq, Tok.word.injEq] at h'
    exact absurd h'.1 (not_keyword (k := "if") (by decide))

theorem loopLines_py {m : LoopExec} (hm : modeOK .python m = true) (x : Str) (n : Int) : loopLines .python m x n = [seqLoop .python x n] := by
  cases m <;> first | rfl | (simp [modeOK] at hm; done)

theorem directiveOf_py (m : LoopExec) : directiveOf .python m = none := by cases m <;> rfl

theorem line_py {s : Str} {ts : List Tok} (hs : Starts s) (h : Lx .python s ts) (i : Nat) : Ls .python [pad i s] (.line (4 * i) :: ts) := by
  have := Ls.line hs h i
  rwa [lineTok, if_pos rfl] at this

set_option maxHeartbeats 1600000 in
/-- Statements print as lines that parse back (Python). -/
theorem py_stmt : ∀ (s : Stmt), s.fits .python → ∀ i, ∃ ts, Ls .python (s.lines .python i) ts ∧ PS (4 * i) s ts ∧ (s.nonempty = false → ts = [])
  | .skip, _, i => ⟨[], Ls.nil _, ⟨0, by simp, by simp [Stmt.nonempty], fun rest h => h, fun rest m r rest' hn hr f hf => hr f (by omega)⟩, fun _ => rfl⟩
  | .seq s t, h, i => by
    obtain ⟨ts, h1, h2, h0⟩ := py_stmt s h.1 i
    obtain ⟨tt, h3, h4, h5⟩ := py_stmt t h.2 i
    refine ⟨_, h1.append h3, h2.seq h4 h0, fun h => ?_⟩
    simp only [Stmt.nonempty, Bool.or_eq_false_iff] at h
    rw [h0 h.1, h5 h.2]; rfl
  | .initI x e, h, i => by
    obtain ⟨te, l, p⟩ := ki_ev h
    have hl := line_py (((chars_word x).starts.append _).append _) (Lx.assign_py (Lx.word (chars_word x)) l) i
    exact ⟨_, hl, pyAssign x (tl := []) ((PP.name (var_isName .python x)).pu.pe 0) p (fun r => rfl), by simp [Stmt.nonempty]⟩
  | .initD dt x e, h, i => by
    obtain ⟨te, l, p⟩ := kd_ev h
    have hl := line_py (((chars_word x).starts.append _).append _) (Lx.assign_py (Lx.word (chars_word x)) l) i
    exact ⟨_, hl, pyAssign x (tl := []) ((PP.name (var_isName .python x)).pu.pe 0) p (fun r => rfl), by simp [Stmt.nonempty]⟩
  | .set x e, h, i => by
    obtain ⟨te, l, p⟩ := kd_ev h
    have hl := line_py (((chars_word x).starts.append _).append _) (Lx.assign_py (Lx.word (chars_word x)) l) i
    exact ⟨_, hl, pyAssign x (tl := []) ((PP.name (var_isName .python x)).pu.pe 0) p (fun r => rfl), by simp [Stmt.nonempty]⟩
  | .store j e, h, i => by
    obtain ⟨tj, lj, pj⟩ := ki_ev h.1
    obtain ⟨te, l, p⟩ := kd_ev h.2
    have hl := line_py (((((chars_word .out).starts.append _).append _).append _).append _ |>.append _) (Lx.assign_py ((Lx.word (chars_word .out)).index lj) l) i
    exact ⟨_, hl, pyAssign .out (tl := .sym ['['] :: (tj ++ [.sym [']']])) (((PP.name (var_isName .python .out)).index pj).pu.pe 0) p (fun r => rfl), by simp [Stmt.nonempty]⟩
  | .loop m x n b, h, i => by
    obtain ⟨hm, hl, hb, hne⟩ := h
    obtain ⟨tb, lb, pb, _⟩ := py_stmt b hb (i + 1)
    have l1 := line_py (s := seqLoop .python x.chars n) ⟨_, _, rfl, by decide, by decide, by decide⟩ (Lx.for_py x n) i
    have hl := l1.append (lb.append (Ls.blank i))
    refine ⟨.line (4 * i) :: .word "for".toList :: .word x.chars :: .word "in".toList :: (rangeToks n ++ (.sym [':'] :: tb)), by rw [Stmt.lines, loopLines_py hm]; simpa using hl, ⟨2 * tb.length + 3, by simp [rangeToks]; omega, fun _ => ⟨_, rfl⟩, fun rest _ => ?_, fun rest mm r rest' hn hr f hf => ?_⟩, by simp [Stmt.nonempty]⟩
    · exact pyNext_line (t := .word "for".toList) (by decide)
    obtain ⟨f, rfl⟩ : ∃ f', f = f' + 1 := ⟨f - 1, by omega⟩
    have hbody := PS.suite (n := 4 * i) (by rw [show 4 * i + 4 = 4 * (i + 1) by omega]; exact pb) hne hn.dedent f (by omega)
    have hf' := hr f (by omega)
    have hR := (range_pe n).expression (rest := .sym [':'] :: (tb ++ rest)) (closed_sym (by simp) _)
    rw [Stmt.sx, if_pos rfl, directiveOf_py]
    simp only [List.append_assoc, List.cons_append, List.nil_append]
    rw [show ("for".toList : List Char) = ['f', 'o', 'r'] from rfl, show ("in".toList : List Char) = ['i', 'n'] from rfl, pyBlock, if_neg (by omega), if_neg (by omega)]
    rw [var_isName, if_pos rfl, hR]
    rw [show ("range".toList : List Char) = ['r', 'a', 'n', 'g', 'e'] from rfl]
    simp only [hbody, hf', andThen]
  | .ite c t e, h, i => by
    obtain ⟨hc, ht, htn, he, hen⟩ := h
    obtain ⟨tc, lc, pc⟩ := ki_ev hc
    obtain ⟨tt, lt, pt, _⟩ := py_stmt t ht (i + 1)
    obtain ⟨te, le, pe, _⟩ := py_stmt e he (i + 1)
    have l1 := line_py (s := ifStart .python (c.text .python)) ⟨_, _, rfl, by decide, by decide, by decide⟩ (Lx.if_py lc) i
    have l2 := line_py (s := else_ .python) ⟨_, _, rfl, by decide, by decide, by decide⟩ Lx.else_py i
    refine ⟨_, l1.cons (lt.append (l2.cons (le.append (Ls.blank i)))), ⟨2 * tt.length + 2 * te.length + 4, by simp; omega, fun _ => ⟨_, rfl⟩, fun rest _ => ?_, fun rest mm r rest' hn hr f hf => ?_⟩, by simp [Stmt.nonempty]⟩
    · simp only [List.append_assoc, List.cons_append]; exact pyNext_line (by decide)
    obtain ⟨f, rfl⟩ : ∃ f', f = f' + 1 := ⟨f - 1, by omega⟩
    have b1 := PS.suite (n := 4 * i) (by rw [show 4 * i + 4 = 4 * (i + 1) by omega]; exact pt) htn (rest := .line (4 * i) :: .word "else".toList :: .sym [':'] :: (te ++ rest))
      (.inr ⟨_, _, rfl, by omega⟩) f (by omega)
    have b2 := PS.suite (n := 4 * i) (by rw [show 4 * i + 4 = 4 * (i + 1) by omega]; exact pe) hen hn.dedent f (by omega)
    have hf' := hr f (by omega)
    have hE := pc.expression (rest := .sym [':'] :: (tt ++ (.line (4 * i) :: .word "else".toList :: .sym [':'] :: (te ++ rest)))) (closed_sym (by simp) _)
    simp only [List.append_assoc, List.cons_append, List.nil_append]
    rw [show ("if".toList : List Char) = ['i', 'f'] from rfl, pyBlock, if_neg (by omega), if_neg (by omega)]
    rw [show ("else".toList : List Char) = ['e', 'l', 's', 'e'] from rfl] at b1 hE ⊢
    simp only [hE, b1, b2, hf', andThen, Stmt.sx, if_true]
  | .guardRet c, h, i => by
    obtain ⟨tc, lc, pc⟩ := ki_ev h
    have l1 := line_py (s := ifStart .python (c.text .python)) ⟨_, _, rfl, by decide, by decide, by decide⟩ (Lx.if_py lc) i
    have l2 := line_py (s := ret .python) ⟨_, _, rfl, by decide, by decide, by decide⟩ Lx.ret_py (i + 1)
    refine ⟨_, l1.cons (l2.cons (Ls.blank i)), ⟨6, by simp; omega, fun _ => ⟨_, rfl⟩, fun rest _ => ?_, fun rest mm r rest' hn hr f hf => ?_⟩, by simp [Stmt.nonempty]⟩
    · simp only [List.append_assoc, List.cons_append]; exact pyNext_line (by decide)
    obtain ⟨f, rfl⟩ : ∃ f', f = f' + 1 := ⟨f - 1, by omega⟩
    have hf' := hr f (by omega)
    have hE := pc.expression (rest := .sym [':'] :: .line (4 * (i + 1)) :: .word "return".toList :: rest) (closed_sym (by simp) _)
    have hR : pySuite f (4 * i) (.line (4 * (i + 1)) :: .word "return".toList :: rest) = some (.ret .done, rest) := by
      obtain ⟨f, rfl⟩ : ∃ f', f = f' + 1 := ⟨f - 1, by omega⟩
      obtain ⟨f, rfl⟩ : ∃ f', f = f' + 1 := ⟨f - 1, by omega⟩
      rw [show ("return".toList : List Char) = ['r', 'e', 't', 'u', 'r', 'n'] from rfl, pySuite, if_pos (by omega), pyBlock, if_neg (by omega), if_neg (by omega)]
      rw [show 4 * (i + 1) = 4 * i + 4 by omega, pyBlock_end hn.dedent f (by omega)]; rfl
    simp only [List.append_assoc, List.cons_append, List.nil_append]
    rw [show ("if".toList : List Char) = ['i', 'f'] from rfl, pyBlock, if_neg (by omega), if_neg (by omega)]
    simp only [hE, hR]
    split
    · rename_i heq
      simp only [Option.some.injEq, Prod.mk.injEq] at heq
      obtain ⟨rfl, rfl⟩ := heq
      rw [if_neg]
      · rw [hf']; rfl
      · rintro rfl
        rcases hn with h | ⟨m, r, h, h' | ⟨_, h'⟩⟩
        · cases h
        · cases h; omega
        · cases h; exact h' rfl
    · rename_i heq
      simp only [Option.some.injEq, Prod.mk.injEq] at heq
      obtain ⟨rfl, rfl⟩ := heq
      rw [hf']; rfl
    · rename_i heq
      cases heq
  | .gpuIdx x th d, h, i => by
    have h' : Lang.python = Lang.cuda := h
    cases h'

end Syntax
end Whale
