import Verif.Proofs.ParseExpr
/-
Printed statements parse back: expressions in the forms the code generator uses, lines, and the statements of C.
-/
namespace Whale
open LangSpec Syntax

/-- Expressions whose text needs no parentheses around operands: the operands bind at least as tightly as their position demands. -/
def KI.fits (L : Lang) : Nat → KI → Prop
  | _, .var _ => True
  | _, .lit _ => True
  | q, .bin op l r => Codegen.renderBin op = true ∧ q ≤ resLevel L op ∧ l.fits L (argLevel L op) ∧ r.fits L (argLevel L op + 1)

def KD.fits (L : Lang) : Nat → KD → Prop
  | _, .var _ => True
  | _, .lit _ => True
  | _, .zero _ => True
  | _, .un op e => Codegen.renderUn op = true ∧ e.fits L 0
  | q, .bin op l r => Codegen.renderBin op = true ∧ q ≤ resLevel L op ∧ l.fits L (argLevel L op) ∧ r.fits L (argLevel L op + 1)
  | _, .read _ i => i.fits L 0

def Stmt.nonempty : Stmt → Bool
  | .skip => false
  | .seq s t => s.nonempty || t.nonempty
  | _ => true

def isLoop : LoopExec → Bool
  | .gpuBlock _ | .gpuThread _ => false
  | _ => true

def Stmt.fits (L : Lang) : Stmt → Prop
  | .skip => True
  | .seq s t => s.fits L ∧ t.fits L
  | .initI _ e => e.fits L 0
  | .initD _ _ e => e.fits L 0
  | .set _ e => e.fits L 0
  | .store i e => i.fits L 0 ∧ e.fits L 0
  | .loop m _ _ b => modeOK L m = true ∧ isLoop m = true ∧ b.fits L ∧ b.nonempty = true
  | .ite c t f => c.fits L 0 ∧ t.fits L ∧ t.nonempty = true ∧ f.fits L ∧ f.nonempty = true
  | .guardRet c => c.fits L 0
  | .gpuIdx _ _ _ => L = .cuda

namespace Syntax

theorem ki_ev {L : Lang} : ∀ {e : KI} {q : Nat}, e.fits L q → Ev L q (e.text L) (e.ex L)
  | .var x, q, _ => Ev.var L q x
  | .lit c, q, _ => Ev.int L q c
  | .bin op l r, q, h => (Ev.bin L h.1 (ki_ev h.2.2.1) (ki_ev h.2.2.2)).mono h.2.1

theorem zero_ev (L : Lang) (q : Nat) : ∀ b, Ev L q ((KD.zero b).text L) ((KD.zero b).ex L)
  | true => Ev.int L q 0
  | false => by
    refine ⟨[.num "0.0".toList], ?_, (PP.number (s := "0.0".toList) (e := .dec 0 0) (by decide +kernel)).pu.pe q⟩
    intro r hr
    have : lexGo L .none ("0.0".toList ++ r) = lexGo L (.num "0.0".toList) r := by cases L <;> rfl
    rw [show (KD.zero false).text L = "0.0".toList from rfl, this, lex_hard rfl hr]; rfl

theorem kd_ev {L : Lang} : ∀ {e : KD} {q : Nat}, e.fits L q → Ev L q (e.text L) (e.ex L)
  | .var x, q, _ => Ev.var L q x
  | .lit c, q, _ => Ev.int L q c
  | .zero b, q, _ => zero_ev L q b
  | .un op e, q, h => Ev.un L h.1 (kd_ev h.2)
  | .bin op l r, q, h => (Ev.bin L h.1 (kd_ev h.2.2.1) (kd_ev h.2.2.2)).mono h.2.1
  | .read a i, q, h => Ev.index a (ki_ev (e := i) h)

/-! ### lines -/

def lineTok (L : Lang) (n : Nat) : List Tok := if L = .python then [.line n] else []

theorem lex_spaces (L : Lang) (s : Str) : ∀ k n, lexGo L (.indent n) (List.replicate k ' ' ++ s) = lexGo L (.indent (n + k)) s
  | 0, n => by simp
  | k + 1, n => by
    rw [List.replicate_succ, List.cons_append, lexGo, show step L (.indent n) ' ' = ([], .indent (n + 1)) by simp [step], List.nil_append, lex_spaces L s k]
    congr 2; omega

theorem lex_pad (L : Lang) (i : Nat) (s r : Str) : lexGo L (.indent 0) (pad i s ++ r) = lexGo L (.indent (4 * i)) (s ++ r) := by
  rw [pad, List.append_assoc, lex_spaces]; simp

/-- A text that starts a line. -/
def Starts (s : Str) : Prop := ∃ c cs, s = c :: cs ∧ c ≠ ' ' ∧ c ≠ '\n' ∧ c ≠ '#'

theorem Starts.append {s : Str} (h : Starts s) (t : Str) : Starts (s ++ t) := by
  obtain ⟨c, cs, rfl, h⟩ := h
  exact ⟨c, cs ++ t, rfl, h⟩

theorem IsWord.starts {s : Str} (h : IsWord s) : Starts s := by
  obtain ⟨c, cs, rfl, h1, _⟩ := h
  exact ⟨c, cs, rfl, by rintro rfl; revert h1; decide, by rintro rfl; revert h1; decide, by rintro rfl; revert h1; decide⟩

theorem lex_start {L : Lang} {s : Str} (h : Starts s) (n : Nat) : lexGo L (.indent n) s = lineTok L n ++ lexGo L .none s := by
  obtain ⟨c, cs, rfl, h1, h2, h3⟩ := h
  rw [lexGo, lexGo, step_none h2]
  by_cases hL : L = .python
  · simp [step, h1, h2, hL, lineTok]
  · simp [step, h1, h2, h3, hL, lineTok]

theorem lex_newline (L : Lang) (r : Str) : lexGo L .none ('\n' :: r) = lexGo L (.indent 0) r := by
  rw [lexGo]; simp [step]

/-- Lines with their ends. -/
def unl (l : List Str) : Str := l.flatMap (· ++ ['\n'])

theorem unl_append (a b : List Str) : unl (a ++ b) = unl a ++ unl b := by simp [unl]
theorem unl_cons (a : Str) (b : List Str) : unl (a :: b) = a ++ ('\n' :: unl b) := by simp [unl]

/-- The lines `l` have the tokens `ts`. -/
def Ls (L : Lang) (l : List Str) (ts : List Tok) : Prop := ∀ r, lexGo L (.indent 0) (unl l ++ r) = ts ++ lexGo L (.indent 0) r

theorem Ls.nil (L : Lang) : Ls L [] [] := fun r => by simp [unl]

theorem Ls.append {L : Lang} {a b : List Str} {ta tb : List Tok} (ha : Ls L a ta) (hb : Ls L b tb) : Ls L (a ++ b) (ta ++ tb) := fun r => by
  rw [unl_append, List.append_assoc, ha, hb, List.append_assoc]

theorem Ls.cons {L : Lang} {a : Str} {b : List Str} {ta tb : List Tok} (ha : Ls L [a] ta) (hb : Ls L b tb) : Ls L (a :: b) (ta ++ tb) := ha.append (a := [a]) hb

theorem Ls.line {L : Lang} {s : Str} {ts : List Tok} (hs : Starts s) (h : Lx L s ts) (i : Nat) : Ls L [pad i s] (lineTok L (4 * i) ++ ts) := fun r => by
  have : unl [pad i s] ++ r = pad i s ++ ('\n' :: r) := by simp [unl]
  rw [this, lex_pad, lex_start (hs.append _), h _ (hard_cons (by decide) _), lex_newline, List.append_assoc]

theorem Ls.blank (i : Nat) : Ls .python [pad i (blockEnd .python)] [] := fun r => by
  have : unl [pad i (blockEnd .python)] ++ r = pad i [] ++ ('\n' :: r) := by simp [unl, blockEnd]
  rw [this, lex_pad, List.nil_append, lexGo]; simp [step]

theorem lex_directive_go (L : Lang) (r : Str) : ∀ (d acc : Str), (∀ c ∈ d, c ≠ '\n') → lexGo L (.directive acc) (d ++ ('\n' :: r)) = .directive (acc ++ d) :: lexGo L (.indent 0) r
  | [], acc, _ => by rw [List.nil_append, lexGo]; simp [step]
  | c :: d, acc, h => by
    rw [List.cons_append, lexGo]
    simp only [step, h c List.mem_cons_self, if_false, List.nil_append]
    rw [lex_directive_go L r d _ (fun c h' => h c (List.mem_cons_of_mem _ h'))]
    simp

theorem Ls.directive {L : Lang} (hL : L ≠ .python) {d : Str} (h : ∀ c ∈ d, c ≠ '\n') (i : Nat) : Ls L [pad i ('#' :: d)] [.directive d] := fun r => by
  have : unl [pad i ('#' :: d)] ++ r = pad i ('#' :: d) ++ ('\n' :: r) := by simp [unl]
  rw [this, lex_pad, List.cons_append, lexGo]
  have : step L (.indent (4 * i)) '#' = ([], .directive []) := by simp [step, hL]
  rw [this, List.nil_append, lex_directive_go L r d _ h]; rfl

/-! ### pieces of lines -/

theorem Lx.semi {L : Lang} {s : Str} {ts : List Tok} (h : Lx L s ts) : Lx L (s ++ ";".toList) (ts ++ [.sym [';']]) := by
  intro r hr
  have : s ++ ";".toList ++ r = s ++ (';' :: r) := by simp
  rw [this, h _ (hard_cons (by decide) _), lex_open (by simp)]; simp

theorem Lx.colon {s : Str} {ts : List Tok} {L : Lang} (h : Lx L s ts) : Lx L (s ++ ":".toList) (ts ++ [.sym [':']]) := by
  intro r hr
  have : s ++ ":".toList ++ r = s ++ (':' :: r) := by simp
  rw [this, h _ (hard_cons (by decide) _), lexGo, step_none (by decide), show begin_ ':' = .sym [':'] by decide, lex_hard rfl hr]; simp [flush]

theorem Lx.space {L : Lang} {a s : Str} {ta ts : List Tok} (ha : Lx L a ta) (h : Lx L s ts) : Lx L (a ++ " ".toList ++ s) (ta ++ ts) := by
  intro r hr
  have : a ++ " ".toList ++ s ++ r = a ++ (' ' :: (s ++ r)) := by simp
  rw [this, ha _ (hard_cons (by decide) _), lex_space, h _ hr]; simp

theorem Lx.closeBrace {L : Lang} (hL : L ≠ .python) : Lx L (blockEnd L) [.sym ['}']] := by
  intro r hr
  have : blockEnd L ++ r = '}' :: r := by cases L <;> first | exact absurd rfl hL | rfl
  rw [this]
  exact lex_open (c := '}') (by simp) r

theorem starts_close {L : Lang} (hL : L ≠ .python) : Starts (blockEnd L) := by
  cases L <;> first | exact absurd rfl hL | exact ⟨_, _, rfl, by decide, by decide, by decide⟩

theorem typename_word (dt : DType) : IsWord (typename dt) := by cases dt <;> exact isWord_lit (by decide)
theorem typename_isType (dt : DType) : isType (typename dt) = true := by cases dt <;> decide +kernel

theorem Lx.assign_c {L : Lang} (hL : L ≠ .python) {a s : Str} {ta ts : List Tok} (ha : Lx L a ta) (h : Lx L s ts) :
    Lx L (LangSpec.assign L a s) (ta ++ (.sym ['='] :: (ts ++ [.sym [';']]))) := by
  have : LangSpec.assign L a s = LangSpec.infx "=" a s ++ ";".toList := by
    cases L <;> first | exact absurd rfl hL | simp [LangSpec.assign, LangSpec.infx]
  rw [this]
  simpa using (ha.infx (opTok_sym L "=" (by decide)) h).semi

theorem Lx.init_c {L : Lang} (hL : L ≠ .python) (dt : DType) (x : VName) {s : Str} {ts : List Tok} (h : Lx L s ts) :
    Lx L (LangSpec.init L dt x.chars s) (.word (typename dt) :: .word x.chars :: .sym ['='] :: (ts ++ [.sym [';']])) := by
  have : LangSpec.init L dt x.chars s = typename dt ++ " ".toList ++ (LangSpec.infx "=" x.chars s ++ ";".toList) := by
    cases L <;> first | exact absurd rfl hL | simp [LangSpec.init, LangSpec.infx]
  rw [this]
  simpa using (Lx.word (L := L) (typename_word dt)).space (((Lx.word (chars_word x)).infx (opTok_sym L "=" (by decide)) h).semi)

theorem Lx.for_c {L : Lang} (hL : L ≠ .python) (x : VName) (n : Int) :
    Lx L (seqLoop L x.chars n) (.word "for".toList :: .sym ['('] :: .word "int".toList :: .word x.chars :: .sym ['='] :: (intToks 0 ++ (.sym [';'] :: .word x.chars :: .sym ['<'] ::
      (intToks n ++ (.sym [';'] :: .word x.chars :: .sym ['+', '='] :: (intToks 1 ++ [.sym [')'], .sym ['{']])))))) := by
  intro r hr
  have e : seqLoop L x.chars n ++ r = 'f' :: 'o' :: 'r' :: ' ' :: '(' :: 'i' :: 'n' :: 't' :: ' ' :: (x.chars ++ (' ' :: ("=".toList ++ (' ' :: (intText 0 ++ (';' :: (' ' :: (x.chars ++ (' ' :: ("<".toList ++ (' ' :: (intText n ++ (';' :: (' ' :: (x.chars ++ (' ' :: ("+=".toList ++ (' ' :: (intText 1 ++ (')' :: (' ' :: ('{' :: r)))))))))))))))))))))) := by
    have h : seqLoop L x.chars n = "for (int ".toList ++ x.chars ++ " = ".toList ++ intText 0 ++ "; ".toList ++ x.chars ++ " < ".toList ++ intText n ++ "; ".toList ++ x.chars ++ " += ".toList ++ intText 1 ++ ") {".toList := by
      cases L <;> first | exact absurd rfl hL | rfl
    rw [h]
    generalize intText 0 = a, intText n = b, intText 1 = c, x.chars = y
    simp
  have e0 : ∀ X, lexGo L .none ('f' :: 'o' :: 'r' :: ' ' :: '(' :: 'i' :: 'n' :: 't' :: ' ' :: X) = .word "for".toList :: .sym ['('] :: .word "int".toList :: lexGo L .none X := by
    intro X; cases L <;> rfl
  have hx := Lx.word (L := L) (chars_word x)
  have hc : ∀ {c : Char}, c ∈ hardChars → ∀ X, Hard (c :: X) := fun h X => hard_cons h X
  have h1 := opTok_sym L "=" (by decide)
  have h2 := opTok_sym L "<" (by decide)
  have h3 := opTok_sym L "+=" (by decide)
  rw [e, e0, hx _ (hc (by decide) _), h1, Lx.int L 0 _ (hc (by decide) _), lex_open (by simp), lex_space, hx _ (hc (by decide) _), h2, Lx.int L n _ (hc (by decide) _), lex_open (by simp),
    lex_space, hx _ (hc (by decide) _), h3, Lx.int L 1 _ (hc (by decide) _), lex_open (by simp), lex_space, lex_open (by simp)]
  simp

theorem Lx.if_c {L : Lang} (hL : L ≠ .python) {s : Str} {ts : List Tok} (h : Lx L s ts) :
    Lx L (ifStart L s) (.word "if".toList :: .sym ['('] :: (ts ++ [.sym [')'], .sym ['{']])) := by
  intro r hr
  have e : ifStart L s ++ r = 'i' :: 'f' :: ' ' :: '(' :: (s ++ (')' :: ' ' :: '{' :: r)) := by
    cases L <;> first | exact absurd rfl hL | simp [ifStart]
  have e0 : ∀ X, lexGo L .none ('i' :: 'f' :: ' ' :: X) = .word "if".toList :: lexGo L .none X := by intro X; cases L <;> rfl
  rw [e, e0, lex_open (by simp), h _ (hard_cons (by decide) _), lex_open (by simp), lex_space, lex_open (by simp)]
  simp

theorem Lx.else_c {L : Lang} (hL : L ≠ .python) : Lx L (else_ L) [.sym ['}'], .word "else".toList, .sym ['{']] := by
  intro r hr
  have e : else_ L ++ r = '}' :: ' ' :: 'e' :: 'l' :: 's' :: 'e' :: ' ' :: '{' :: r := by
    cases L <;> first | exact absurd rfl hL | rfl
  have e0 : ∀ X, lexGo L .none ('}' :: ' ' :: 'e' :: 'l' :: 's' :: 'e' :: ' ' :: X) = .sym ['}'] :: .word "else".toList :: lexGo L .none X := by intro X; cases L <;> rfl
  rw [e, e0, lex_open (by simp)]; simp

theorem Lx.ret_c {L : Lang} (hL : L ≠ .python) : Lx L (ret L) [.word "return".toList, .sym [';']] := by
  intro r hr
  have e : ret L ++ r = 'r' :: 'e' :: 't' :: 'u' :: 'r' :: 'n' :: ';' :: r := by
    cases L <;> first | exact absurd rfl hL | rfl
  have e0 : ∀ X, lexGo L .none ('r' :: 'e' :: 't' :: 'u' :: 'r' :: 'n' :: ';' :: X) = .word "return".toList :: lexGo L .none (';' :: X) := by intro X; cases L <;> rfl
  rw [e, e0, lex_open (by simp)]; simp

theorem intText_nl (c : Int) : ∀ d ∈ intText c, d ≠ '\n' := by
  intro d hd e
  subst e
  unfold intText at hd
  split at hd
  · rcases List.mem_cons.1 hd with h | h
    · revert h; decide
    · have := digits_all _ _ h; revert this; decide
  · have := digits_all _ _ hd; revert this; decide

/-- The opening lines of a loop in C. -/
theorem Ls.loop_c {L : Lang} (hL : L ≠ .python) {m : LoopExec} (hm : modeOK L m = true) (hl : isLoop m = true) (x : VName) (n : Int) (i : Nat) :
    Ls L ((loopLines L m x.chars n).map (pad i)) ((match directiveOf L m with
      | some d => [.directive d]
      | none => []) ++ (.word "for".toList :: .sym ['('] :: .word "int".toList :: .word x.chars :: .sym ['='] :: (intToks 0 ++ (.sym [';'] :: .word x.chars :: .sym ['<'] ::
      (intToks n ++ (.sym [';'] :: .word x.chars :: .sym ['+', '='] :: (intToks 1 ++ [.sym [')'], .sym ['{']]))))))) := by
  have hf := Ls.line (L := L) (s := seqLoop L x.chars n) (by cases L <;> exact ⟨_, _, rfl, by decide, by decide, by decide⟩) (Lx.for_c hL x n) i
  rw [lineTok, if_neg hL, List.nil_append] at hf
  have lit : ∀ {d : Str}, (d.all (· ≠ '\n')) = true → ∀ c ∈ d, c ≠ '\n' := by
    intro d h c hc; simpa using List.all_eq_true.1 h c hc
  cases m <;> first | (simp [isLoop] at hl; done) | skip
  case sequential => cases L <;> first | exact absurd rfl hL | exact hf
  case parallel =>
    cases L <;> first | exact absurd rfl hL | (simp [modeOK] at hm; done) | skip
    exact Ls.cons (a := pad i ('#' :: "pragma omp parallel for".toList)) (Ls.directive hL (lit (by decide)) i) hf
  case vectorize =>
    cases L <;> first | exact absurd rfl hL | (simp [modeOK] at hm; done) | skip
    exact Ls.cons (a := pad i ('#' :: "pragma clang loop vectorize(enable)".toList)) (Ls.directive hL (lit (by decide)) i) hf
  case unroll k =>
    have hk := intText_nl k
    cases L <;> first | exact absurd rfl hL | skip
    case clang =>
      refine Ls.cons (a := pad i ('#' :: ("pragma clang loop unroll_count(".toList ++ intText k ++ ")".toList))) (Ls.directive hL ?_ i) hf
      intro c hc
      rw [List.mem_append, List.mem_append] at hc
      rcases hc with (hc | hc) | hc
      · exact lit (d := "pragma clang loop unroll_count(".toList) (by decide) c hc
      · exact hk c hc
      · exact lit (d := ")".toList) (by decide) c hc
    case cuda =>
      refine Ls.cons (a := pad i ('#' :: ("pragma unroll ".toList ++ intText k))) (Ls.directive hL ?_ i) hf
      intro c hc
      rw [List.mem_append] at hc
      rcases hc with hc | hc
      · exact lit (d := "pragma unroll ".toList) (by decide) c hc
      · exact hk c hc

/-! ### C statements -/

def NotElse (ts : List Tok) : Prop := ts.head? ≠ some (.word "else".toList)

/-- The tokens `ts` are the C statement `s`. -/
def CS (L : Lang) (s : Stmt) (ts : List Tok) : Prop := ∃ k, k ≤ ts.length ∧ (∀ rest, NotElse rest → NotElse (ts ++ rest)) ∧
  ∀ rest m r rest', NotElse rest → (∀ f ≥ m, cStmts L f rest = some (r, rest')) → ∀ f ≥ m + k, cStmts L f (ts ++ rest) = some (s.sx L r, rest')

theorem cDecl {L : Lang} (hL : L ≠ .python) (dt : DType) (x : VName) {q : Nat} {te : List Tok} {e : Ex} (h : PE L q te e) {s : Stmt} (hs : ∀ r, s.sx L r = Syntax.declare L dt x e r) :
    CS L s (.word (typename dt) :: .word x.chars :: .sym ['='] :: (te ++ [.sym [';']])) := by
  refine ⟨1, by simp, fun rest _ => ?_, fun rest m r rest' hn hr f hf => ?_⟩
  · intro h
    simp only [List.cons_append, List.head?_cons, Option.some.injEq, Tok.word.injEq] at h
    revert h; cases dt <;> decide
  · obtain ⟨f, rfl⟩ : ∃ f', f = f' + 1 := ⟨f - 1, by omega⟩
    simp only [List.cons_append, List.append_assoc, List.nil_append]
    rw [cStmts]
    · rw [typename_isType, var_isName, Bool.and_self, if_pos rfl, h.expression (closed_sym (by simp) _)]
      simp only [hr f (by omega), andThen, hs]
      simp [Syntax.declare, hL]

theorem cAssign {L : Lang} {q q' : Nat} {x : Str} {t2 : Tok} {tl te : List Tok} {l e : Ex} (hl : PE L q' (.word x :: tl) l) (h : PE L q te e)
    (h2 : ∀ rest, ∃ rest', tl ++ (Tok.sym ['='] :: rest) = t2 :: rest') (ht2 : t2 = .sym ['='] ∨ t2 = .sym ['[']) (hx : x ≠ "else".toList) {s : Stmt} (hs : ∀ r, s.sx L r = .assign l e r) :
    CS L s (.word x :: tl ++ (.sym ['='] :: (te ++ [.sym [';']]))) := by
  refine ⟨1, by simp, fun rest _ => ?_, fun rest m r rest' hn hr f hf => ?_⟩
  · intro h
    simp only [List.cons_append, List.head?_cons, Option.some.injEq, Tok.word.injEq] at h
    exact hx h
  · obtain ⟨f, rfl⟩ : ∃ f', f = f' + 1 := ⟨f - 1, by omega⟩
    have e1 : .word x :: tl ++ (.sym ['='] :: (te ++ [.sym [';']])) ++ rest = (.word x :: tl) ++ (.sym ['='] :: (te ++ (.sym [';'] :: rest))) := by simp
    have hE := hl.expression (rest := .sym ['='] :: (te ++ (.sym [';'] :: rest))) (closed_sym (by simp) _)
    obtain ⟨X, hX⟩ := h2 (te ++ (.sym [';'] :: rest))
    rw [e1]
    rw [List.cons_append, hX] at hE ⊢
    have key : cStmts L (f + 1) (.word x :: t2 :: X) = (match expression L (.word x :: t2 :: X) with
      | some (l, .sym ['='] :: ts) => match expression L ts with
        | some (e, .sym [';'] :: ts) => andThen (.assign l e) (cStmts L f ts)
        | _ => none
      | _ => none) := by
      rcases ht2 with rfl | rfl
      · rw [cStmts] <;> first | rfl | simp
      · rw [cStmts] <;> first | rfl | simp
    rw [key, hE]
    simp only
    rw [h.expression (closed_sym (by simp) _)]
    simp only [hr f (by omega), andThen, hs]

theorem closed_cons_sym {L : Lang} {c : Char} {ts : List Tok} (h : c = ')' ∨ c = ']' ∨ c = ';' ∨ c = ':' ∨ c = '=' ∨ c = '{') : Closed L (.sym [c] :: ts) := closed_sym h ts

theorem cFor_ok {L : Lang} (x : VName) (n : Int) (rest : List Tok) :
    cFor L (.word "int".toList :: .word x.chars :: .sym ['='] :: (intToks 0 ++ (.sym [';'] :: .word x.chars :: .sym ['<'] ::
      (intToks n ++ (.sym [';'] :: .word x.chars :: .sym ['+', '='] :: (intToks 1 ++ (.sym [')'] :: .sym ['{'] :: rest))))))) =
    some (("int".toList, x.chars, litEx 0, litEx n, litEx 1), rest) := by
  have h0 := ((PU.int L 0).pe 0).expression (rest := .sym [';'] :: .word x.chars :: .sym ['<'] ::
      (intToks n ++ (.sym [';'] :: .word x.chars :: .sym ['+', '='] :: (intToks 1 ++ (.sym [')'] :: .sym ['{'] :: rest))))) (closed_sym (by simp) _)
  have hb : PE L 0 ([.word x.chars] ++ (.sym ['<'] :: intToks n)) (.bin .lt (Syntax.var x) (litEx n)) :=
    PE.bin (q0 := 9) (by cases L <;> rfl) (by decide) ((PP.name (var_isName L x)).pu.pe 9) ((PU.int L n).pe 10) (by omega) (by omega) (by omega) (by omega)
  have h1 := hb.expression (rest := .sym [';'] :: .word x.chars :: .sym ['+', '='] :: (intToks 1 ++ (.sym [')'] :: .sym ['{'] :: rest))) (closed_sym (by simp) _)
  have h2 := ((PU.int L 1).pe 0).expression (rest := .sym [')'] :: .sym ['{'] :: rest) (closed_sym (by simp) _)
  rw [List.append_assoc, List.singleton_append, List.cons_append] at h1
  rw [cFor, show isType "int".toList = true by decide +kernel, var_isName, Bool.and_self, if_pos rfl, h0]
  simp only [h1, Syntax.var, and_self, if_true, h2]

theorem cStmts_close (L : Lang) (rest : List Tok) : ∀ f ≥ 1, cStmts L f (.sym ['}'] :: rest) = some (.done, .sym ['}'] :: rest) := by
  intro f hf
  obtain ⟨f, rfl⟩ : ∃ f', f = f' + 1 := ⟨f - 1, by omega⟩
  rw [cStmts]

theorem notElse_close (rest : List Tok) : NotElse (.sym ['}'] :: rest) := by simp [NotElse]

/-- The body of a block in braces. -/
theorem CS.block {L : Lang} {s : Stmt} {ts : List Tok} (h : CS L s ts) (rest : List Tok) : ∀ f ≥ 1 + ts.length, cStmts L f (ts ++ (.sym ['}'] :: rest)) = some (s.sx L .done, .sym ['}'] :: rest) := by
  obtain ⟨k, h1, _, h3⟩ := h
  intro f hf
  exact h3 _ 1 .done _ (notElse_close rest) (cStmts_close L rest) f (by omega)

theorem CS.seq {L : Lang} {s t : Stmt} {ts tt : List Tok} (hs : CS L s ts) (ht : CS L t tt) : CS L (.seq s t) (ts ++ tt) := by
  obtain ⟨k, a1, a2, a3⟩ := hs
  obtain ⟨l, b1, b2, b3⟩ := ht
  refine ⟨k + l, by simp; omega, fun rest h => by rw [List.append_assoc]; exact a2 _ (b2 _ h), fun rest m r rest' hn hr f hf => ?_⟩
  rw [List.append_assoc]
  exact a3 _ (m + l) _ _ (b2 _ hn) (fun f hf => b3 rest m r rest' hn hr f hf) f (by omega)

theorem lx_gpuIdx (th : Bool) (d : Dim3) : Lx .cuda ((if th then "threadIdx.".toList else "blockIdx.".toList) ++ dimText d)
    [.word (if th then "threadIdx".toList else "blockIdx".toList), .sym ['.'], .word (dimText d)] := by
  intro r hr
  have : ∀ d : Dim3, lexGo .cuda .none ((if th then "threadIdx.".toList else "blockIdx.".toList) ++ dimText d ++ r) =
      [.word (if th then "threadIdx".toList else "blockIdx".toList), .sym ['.']] ++ lexGo .cuda (.word (dimText d)) r := by
    intro d; cases th <;> cases d <;> rfl
  rw [this, lex_hard rfl hr]; rfl

set_option maxHeartbeats 1600000 in
/-- Statements print as lines that parse back (C and CUDA). -/
theorem c_stmt {L : Lang} (hL : L ≠ .python) : ∀ (s : Stmt), s.fits L → ∀ i, ∃ ts, Ls L (s.lines L i) ts ∧ CS L s ts
  | .skip, _, i => ⟨[], Ls.nil L, 0, by simp, fun rest h => h, fun rest m r rest' hn hr f hf => hr f (by omega)⟩
  | .seq s t, h, i => by
    obtain ⟨ts, h1, h2⟩ := c_stmt hL s h.1 i
    obtain ⟨tt, h3, h4⟩ := c_stmt hL t h.2 i
    exact ⟨_, h1.append h3, h2.seq h4⟩
  | .initI x e, h, i => by
    obtain ⟨te, l, p⟩ := ki_ev h
    have hl := Ls.line (by cases L <;> first | exact absurd rfl hL | exact ((((typename_word .int64).starts.append _).append _).append _ |>.append _).append _) (Lx.init_c hL .int64 x l) i
    rw [lineTok, if_neg hL, List.nil_append] at hl
    exact ⟨_, hl, cDecl hL .int64 x p (fun r => rfl)⟩
  | .initD dt x e, h, i => by
    obtain ⟨te, l, p⟩ := kd_ev h
    have hl := Ls.line (by cases L <;> first | exact absurd rfl hL | exact ((((typename_word dt).starts.append _).append _).append _ |>.append _).append _) (Lx.init_c hL dt x l) i
    rw [lineTok, if_neg hL, List.nil_append] at hl
    exact ⟨_, hl, cDecl hL dt x p (fun r => rfl)⟩
  | .set x e, h, i => by
    obtain ⟨te, l, p⟩ := kd_ev h
    have hl := Ls.line (by cases L <;> first | exact absurd rfl hL | exact (((chars_word x).starts.append _).append _).append _) (Lx.assign_c hL (Lx.word (chars_word x)) l) i
    rw [lineTok, if_neg hL, List.nil_append] at hl
    refine ⟨_, hl, cAssign (tl := []) ((PP.name (var_isName L x)).pu.pe 0) p (fun rest => ⟨_, rfl⟩) (.inl rfl) ?_ (fun r => rfl)⟩
    intro e'
    have := var_isName .clang x
    rw [e'] at this
    revert this; decide +kernel
  | .store j e, h, i => by
    obtain ⟨tj, lj, pj⟩ := ki_ev h.1
    obtain ⟨te, l, p⟩ := kd_ev h.2
    have hl := Ls.line (by cases L <;> first | exact absurd rfl hL | exact (((((chars_word .out).starts.append _).append _).append _).append _ |>.append _).append _)
      (Lx.assign_c hL ((Lx.word (chars_word .out)).index lj) l) i
    rw [lineTok, if_neg hL, List.nil_append] at hl
    exact ⟨_, hl, cAssign (tl := .sym ['['] :: (tj ++ [.sym [']']])) (((PP.name (var_isName L .out)).index pj).pu.pe 0) p (fun rest => ⟨_, rfl⟩) (.inr rfl) (by decide) (fun r => rfl)⟩
  | .loop m x n b, h, i => by
    obtain ⟨hm, hl, hb, _⟩ := h
    obtain ⟨tb, lb, pb⟩ := c_stmt hL b hb (i + 1)
    have hl := (Ls.loop_c hL hm hl x n i).append (lb.append (Ls.line (starts_close hL) (Lx.closeBrace hL) i))
    rw [lineTok, if_neg hL, List.nil_append] at hl
    refine ⟨_, hl, tb.length + 3, by simp; omega, fun rest _ => by cases directiveOf L m <;> simp [NotElse], fun rest mm r rest' hn hr f hf => ?_⟩
    obtain ⟨f, rfl⟩ : ∃ f', f = f' + 1 := ⟨f - 1, by omega⟩
    have hbody := pb.block rest f (by omega)
    have hd := cFor_ok (L := L) x n (tb ++ (.sym ['}'] :: rest))
    have hf' := hr f (by omega)
    rw [Stmt.sx, if_neg hL]
    cases hdir : directiveOf L m with
    | none =>
      simp only [List.append_assoc, List.cons_append, List.nil_append]
      rw [show ("for".toList : List Char) = ['f', 'o', 'r'] from rfl, cStmts, hd]
      simp only [hbody, hf', andThen]
    | some d =>
      simp only [List.append_assoc, List.cons_append, List.nil_append]
      rw [show ("for".toList : List Char) = ['f', 'o', 'r'] from rfl, cStmts, hd]
      simp only [hbody, hf', andThen]
  | .ite c t e, h, i => by
    obtain ⟨hc, ht, _, he, _⟩ := h
    obtain ⟨tc, lc, pc⟩ := ki_ev hc
    obtain ⟨tt, lt, pt⟩ := c_stmt hL t ht (i + 1)
    obtain ⟨te, le, pe⟩ := c_stmt hL e he (i + 1)
    have l1 := Ls.line (s := ifStart L (c.text L)) (by cases L <;> first | exact absurd rfl hL | exact ⟨_, _, rfl, by decide, by decide, by decide⟩) (Lx.if_c hL lc) i
    have l2 := Ls.line (s := else_ L) (by cases L <;> first | exact absurd rfl hL | exact ⟨_, _, rfl, by decide, by decide, by decide⟩) (Lx.else_c hL) i
    have l3 := Ls.line (starts_close hL) (Lx.closeBrace hL) i
    rw [lineTok, if_neg hL, List.nil_append] at l1 l2 l3
    refine ⟨_, l1.cons (lt.append (l2.cons (le.append l3))), tt.length + te.length + 4, by simp; omega, fun rest _ => by simp [NotElse], fun rest mm r rest' hn hr f hf => ?_⟩
    obtain ⟨f, rfl⟩ : ∃ f', f = f' + 1 := ⟨f - 1, by omega⟩
    have b1 := pt.block (.word "else".toList :: .sym ['{'] :: (te ++ (.sym ['}'] :: rest))) f (by omega)
    have b2 := pe.block rest f (by omega)
    have hf' := hr f (by omega)
    have hE := pc.expression (rest := .sym [')'] :: .sym ['{'] :: (tt ++ (.sym ['}'] :: .word "else".toList :: .sym ['{'] :: (te ++ (.sym ['}'] :: rest))))) (closed_sym (by simp) _)
    simp only [List.append_assoc, List.cons_append, List.nil_append]
    rw [show ("if".toList : List Char) = ['i', 'f'] from rfl, cStmts, hE]
    rw [show ("else".toList : List Char) = ['e', 'l', 's', 'e'] from rfl] at b1 ⊢
    simp only [b1, b2, hf', andThen, Stmt.sx]
  | .guardRet c, h, i => by
    obtain ⟨tc, lc, pc⟩ := ki_ev h
    have l1 := Ls.line (s := ifStart L (c.text L)) (by cases L <;> first | exact absurd rfl hL | exact ⟨_, _, rfl, by decide, by decide, by decide⟩) (Lx.if_c hL lc) i
    have l2 := Ls.line (s := ret L) (by cases L <;> first | exact absurd rfl hL | exact ⟨_, _, rfl, by decide, by decide, by decide⟩) (Lx.ret_c hL) (i + 1)
    have l3 := Ls.line (starts_close hL) (Lx.closeBrace hL) i
    rw [lineTok, if_neg hL, List.nil_append] at l1 l2 l3
    refine ⟨_, l1.cons (l2.cons l3), 4, by simp, fun rest _ => by simp [NotElse], fun rest mm r rest' hn hr f hf => ?_⟩
    obtain ⟨f, rfl⟩ : ∃ f', f = f' + 1 := ⟨f - 1, by omega⟩
    obtain ⟨g, rfl⟩ : ∃ f', f = f' + 1 := ⟨f - 1, by omega⟩
    have hf' := hr (g + 1) (by omega)
    have hE := pc.expression (rest := .sym [')'] :: .sym ['{'] :: .word "return".toList :: .sym [';'] :: .sym ['}'] :: rest) (closed_sym (by simp) _)
    have hR : cStmts L (g + 1) (.word "return".toList :: .sym [';'] :: .sym ['}'] :: rest) = some (.ret .done, .sym ['}'] :: rest) := by
      rw [show ("return".toList : List Char) = ['r', 'e', 't', 'u', 'r', 'n'] from rfl, cStmts, cStmts_close L rest g (by omega)]; rfl
    simp only [List.append_assoc, List.cons_append, List.nil_append]
    rw [show ("if".toList : List Char) = ['i', 'f'] from rfl, cStmts, hE]
    simp only [hR]
    split
    · rename_i heq
      simp only [Option.some.injEq, Prod.mk.injEq, List.cons.injEq, true_and] at heq
      obtain ⟨_, rfl⟩ := heq
      exact absurd rfl hn
    · rename_i heq
      simp only [Option.some.injEq, Prod.mk.injEq, List.cons.injEq, true_and] at heq
      obtain ⟨rfl, rfl⟩ := heq
      rw [hf']; rfl
    · rename_i h1
      exact absurd rfl (h1 _ _)
  | .gpuIdx x th d, h, i => by
    obtain rfl : L = .cuda := h
    have hm := lx_gpuIdx th d
    have hn : isName .cuda (if th then "threadIdx".toList else "blockIdx".toList) = true := by cases th <;> decide +kernel
    have p := ((PP.name hn).member (dimText d)).pu.pe 0
    have hl := Ls.line (((((typename_word .int64).starts.append _).append _).append _ |>.append _).append _) (Lx.init_c hL .int64 x hm) i
    rw [lineTok, if_neg hL, List.nil_append] at hl
    exact ⟨_, hl, cDecl hL .int64 x p (fun r => rfl)⟩

end Syntax
end Whale
