import Verif.Model.Text
/-
Specification vocabulary for C37: the concrete syntax of the subset of Python, C and CUDA C++ that kernels are written in – tokens, operator precedence,
statements, blocks – as a parser from text to syntax trees, and the syntax tree a kernel is meant to have.

The parser only knows the grammars of the languages; it does not refer to the code generator.  Anything outside the subset (comments, other operators, other
statements) is rejected.
-/
namespace Whale.Syntax
open Whale

/-! ### Tokens -/

/-- A token.  `line n` starts a non-blank line indented by `n` spaces (Python only); `directive` is a preprocessor line of C, without `#`. -/
inductive Tok
  | word (s : Str)
  | num (s : Str)
  | sym (s : Str)
  | str (s : Str)
  | directive (s : Str)
  | line (n : Nat)
  | bad
deriving DecidableEq, Repr

/-- The token being read. -/
inductive Pend
  | indent (n : Nat)
  | none
  | word (s : Str)
  | num (s : Str)
  | sym (s : Str)
  | str (s : Str)
  | directive (s : Str)
deriving DecidableEq, Repr

def wordChar (c : Char) : Bool := c.isAlphanum || c == '_'

/-- Symbols of more than one character (longest match). -/
def longSyms : Lang → List String
  | .python => ["==", "!=", "<=", ">=", "+=", "-=", "*=", "/=", "//=", "%=", "**", "**=", "//", "<<", "<<=", ">>", ">>=", "->", ":=", "&=", "|=", "^="]
  | _ => ["==", "!=", "<=", ">=", "+=", "-=", "*=", "/=", "%=", "++", "--", "->", "&&", "||", "<<", "<<=", ">>", ">>=", "&=", "|=", "^=", "//", "/*"]

/-- The first character of a token, in the middle of a line. -/
def begin_ (c : Char) : Pend :=
  if c = ' ' then .none
  else if c.isDigit then .num [c]
  else if wordChar c then .word [c]
  else if c = '"' then .str []
  else .sym [c]

def flush : Pend → List Tok
  | .indent _ | .none => []
  | .word s => [.word s]
  | .num s => [.num s]
  | .sym s => [.sym s]
  | .str _ => [.bad]
  | .directive s => [.directive s]

/-- One character: the tokens it completes, and the token being read after it. -/
def step (L : Lang) : Pend → Char → List Tok × Pend
  | .indent n, c =>
    if c = '\n' then ([], .indent 0)
    else if c = ' ' then ([], .indent (n + 1))
    else if L = .python then ([.line n], begin_ c)
    else if c = '#' then ([], .directive [])
    else ([], begin_ c)
  | .directive s, c => if c = '\n' then ([.directive s], .indent 0) else ([], .directive (s ++ [c]))
  | .str s, c => if c = '"' then ([.str s], .none) else if c = '\n' then ([.bad], .indent 0) else ([], .str (s ++ [c]))
  | .none, c => if c = '\n' then ([], .indent 0) else ([], begin_ c)
  | .word s, c => if c = '\n' then ([.word s], .indent 0) else if wordChar c then ([], .word (s ++ [c])) else ([.word s], begin_ c)
  | .num s, c => if c = '\n' then ([.num s], .indent 0) else if wordChar c || c == '.' then ([], .num (s ++ [c])) else ([.num s], begin_ c)
  | .sym s, c =>
    if c = '\n' then ([.sym s], .indent 0)
    else if s ++ [c] ∈ (longSyms L).map String.toList then ([], .sym (s ++ [c]))
    else ([.sym s], begin_ c)

def lexGo (L : Lang) : Pend → Str → List Tok
  | p, [] => flush p
  | p, c :: cs => (step L p c).1 ++ lexGo L (step L p c).2 cs

/-- The tokens of a text. -/
def lex (L : Lang) (s : Str) : List Tok := lexGo L (.indent 0) s

/-! ### Expressions -/

inductive BOp
  | add | sub | mul | div | idiv | mod | and | or | eq | gt | ge | lt | le | comma
deriving DecidableEq, Repr

/-- Expressions: names, integer literals, decimal literals (digits before and after the point), negation, binary operators (the comma separates arguments), application, subscript,
member. -/
inductive Ex
  | name (s : Str)
  | int (n : Nat)
  | dec (a b : Nat)
  | neg (e : Ex)
  | bin (op : BOp) (l r : Ex)
  | app (f a : Ex)
  | index (a i : Ex)
  | member (a : Ex) (s : Str)
deriving DecidableEq, Repr

/-- Words that are not names. -/
def keywords : Lang → List String
  | .python => ["False", "None", "True", "and", "as", "assert", "async", "await", "break", "class", "continue", "def", "del", "elif", "else", "except", "finally", "for", "from",
     "global", "if", "import", "in", "is", "lambda", "nonlocal", "not", "or", "pass", "raise", "return", "try", "while", "with", "yield"]
  | .clang => ["auto", "break", "case", "char", "const", "continue", "default", "do", "double", "else", "enum", "extern", "float", "for", "goto", "if", "inline", "int", "long",
     "register", "restrict", "return", "short", "signed", "sizeof", "static", "struct", "switch", "typedef", "union", "unsigned", "void", "volatile", "while", "int32_t", "int64_t"]
  | .cuda => ["alignas", "alignof", "and", "auto", "bool", "break", "case", "catch", "char", "class", "const", "constexpr", "continue", "decltype", "default", "delete", "do", "double",
     "else", "enum", "explicit", "export", "extern", "false", "float", "for", "friend", "goto", "if", "inline", "int", "long", "mutable", "namespace", "new", "noexcept", "not", "nullptr",
     "operator", "or", "private", "protected", "public", "register", "return", "short", "signed", "sizeof", "static", "struct", "switch", "template", "this", "throw", "true", "try",
     "typedef", "typeid", "typename", "union", "unsigned", "using", "virtual", "void", "volatile", "wchar_t", "while", "int32_t", "int64_t", "__global__"]

def isName (L : Lang) (s : Str) : Bool := !((keywords L).map String.toList).contains s

/-- Binary operators and how tightly they bind (Python reference 6.17; C11 6.5). All are left-associative, Python's comparisons chain instead. -/
def binop : Lang → Tok → Option (BOp × Nat)
  | _, .sym [','] => some (.comma, 1)
  | .python, .word ['o', 'r'] => some (.or, 3)
  | .python, .word ['a', 'n', 'd'] => some (.and, 5)
  | .python, .sym ['=', '='] => some (.eq, 9)
  | .clang, .sym ['|', '|'] => some (.or, 3)
  | .cuda, .sym ['|', '|'] => some (.or, 3)
  | .clang, .sym ['&', '&'] => some (.and, 5)
  | .cuda, .sym ['&', '&'] => some (.and, 5)
  | .clang, .sym ['=', '='] => some (.eq, 7)
  | .cuda, .sym ['=', '='] => some (.eq, 7)
  | _, .sym ['<'] => some (.lt, 9)
  | _, .sym ['<', '='] => some (.le, 9)
  | _, .sym ['>'] => some (.gt, 9)
  | _, .sym ['>', '='] => some (.ge, 9)
  | _, .sym ['+'] => some (.add, 11)
  | _, .sym ['-'] => some (.sub, 11)
  | _, .sym ['*'] => some (.mul, 13)
  | _, .sym ['/'] => some (.div, 13)
  | .python, .sym ['/', '/'] => some (.idiv, 13)
  | _, .sym ['%'] => some (.mod, 13)
  | _, _ => none

/-- `a < b < c` is one comparison of three operands in Python. -/
def chains (L : Lang) (q : Nat) : List Tok → Bool
  | t :: _ => L = .python && q = 9 && (match binop L t with
    | some (_, q') => q' = 9
    | none => false)
  | [] => false

/-- The value of a decimal integer literal; no leading zeros (octal in C, an error in Python). -/
def natOf (s : Str) : Option Nat :=
  if s ≠ [] ∧ s.all Char.isDigit = true ∧ (s = ['0'] ∨ s.head? ≠ some '0') then some (Nat.ofDigitChars 10 s 0) else none

def digitsOf (s : Str) : Option Nat := if s ≠ [] ∧ s.all Char.isDigit = true then some (Nat.ofDigitChars 10 s 0) else none

/-- Number literals. -/
def number (s : Str) : Option Ex :=
  match natOf s with
  | some n => some (.int n)
  | none => match s.span (· ≠ '.') with
    | (a, '.' :: b) => do
      let x ← digitsOf a
      let y ← digitsOf b
      pure (.dec x y)
    | _ => none

mutual
/-- Precedence climbing: an expression all of whose unparenthesised operators bind at least as tightly as `p`. -/
def expr (L : Lang) : Nat → Nat → List Tok → Option (Ex × List Tok)
  | 0, _, _ => none
  | f + 1, p, ts => match unary L f ts with
    | none => none
    | some (l, ts) => climb L f p l ts

/-- The rest of an expression whose left part is `l`. -/
def climb (L : Lang) : Nat → Nat → Ex → List Tok → Option (Ex × List Tok)
  | 0, _, _, _ => none
  | _ + 1, _, l, [] => some (l, [])
  | f + 1, p, l, t :: ts => match binop L t with
    | none => some (l, t :: ts)
    | some (op, q) =>
      if p ≤ q then match expr L f (q + 1) ts with
        | none => none
        | some (r, ts) => if chains L q ts then none else climb L f p (.bin op l r) ts
      else some (l, t :: ts)

/-- A prefix minus, or an operand. -/
def unary (L : Lang) : Nat → List Tok → Option (Ex × List Tok)
  | 0, _ => none
  | _ + 1, [] => none
  | f + 1, .sym ['-'] :: ts => match unary L f ts with
    | none => none
    | some (e, ts) => some (.neg e, ts)
  | f + 1, .sym ['('] :: ts => match expr L f 0 ts with
    | some (e, .sym [')'] :: ts) => postfix_ L f e ts
    | _ => none
  | f + 1, .word s :: ts => if isName L s then postfix_ L f (.name s) ts else none
  | f + 1, .num s :: ts => match number s with
    | none => none
    | some e => postfix_ L f e ts
  | _ + 1, _ => none

/-- Calls, subscripts and members after an operand. -/
def postfix_ (L : Lang) : Nat → Ex → List Tok → Option (Ex × List Tok)
  | 0, _, _ => none
  | f + 1, e, .sym ['('] :: ts => match expr L f 0 ts with
    | some (a, .sym [')'] :: ts) => postfix_ L f (.app e a) ts
    | _ => none
  | f + 1, e, .sym ['['] :: ts => match expr L f 0 ts with
    | some (i, .sym [']'] :: ts) => postfix_ L f (.index e i) ts
    | _ => none
  | f + 1, e, .sym ['.'] :: .word s :: ts => postfix_ L f (.member e s) ts
  | _ + 1, _, .sym ['.'] :: _ => none
  | _ + 1, e, ts => some (e, ts)
end

/-- An expression at the start of a token list. (Every call consumes a token or is one of at most three in a row; the fuel is enough.) -/
def expression (L : Lang) (ts : List Tok) : Option (Ex × List Tok) := expr L (4 * ts.length + 4) 0 ts

/-! ### Statements -/

/-- A statement list: each constructor carries the statements after it. `loop`: a loop of `x` from `lo` below `hi` in steps of `by_`, with the type of `x` (C) and the directive
before it, if any. -/
inductive Sx
  | done
  | decl (ty : Str) (x : Str) (e : Ex) (next : Sx)
  | assign (l e : Ex) (next : Sx)
  | loop (directive : Option Str) (ty : Option Str) (x : Str) (lo hi by_ : Ex) (body next : Sx)
  | cond (c : Ex) (t e : Sx) (next : Sx)
  | ret (next : Sx)
deriving DecidableEq, Repr

def types : List String := ["int", "int32_t", "int64_t", "float", "double"]
def isType (s : Str) : Bool := (types.map String.toList).contains s

/-- The `for` statement of C after `for (`, up to `{`. -/
def cFor (L : Lang) : List Tok → Option ((Str × Str × Ex × Ex × Ex) × List Tok)
  | .word ty :: .word x :: .sym ['='] :: ts =>
    if isType ty && isName L x then match expression L ts with
      | some (lo, .sym [';'] :: ts) => match expression L ts with
        | some (.bin .lt (.name y) hi, .sym [';'] :: .word z :: .sym ['+', '='] :: ts) =>
          if y = x ∧ z = x then match expression L ts with
            | some (st, .sym [')'] :: .sym ['{'] :: ts) => some ((ty, x, lo, hi, st), ts)
            | _ => none
          else none
        | _ => none
      | _ => none
    else none
  | _ => none

/-- What comes after a statement. -/
def andThen (k : Sx → Sx) : Option (Sx × List Tok) → Option (Sx × List Tok)
  | some (s, ts) => some (k s, ts)
  | none => none

/-- C statements up to a closing brace or the end. -/
def cStmts (L : Lang) : Nat → List Tok → Option (Sx × List Tok)
  | 0, _ => none
  | _ + 1, [] => some (.done, [])
  | _ + 1, .sym ['}'] :: ts => some (.done, .sym ['}'] :: ts)
  | f + 1, .word ['r', 'e', 't', 'u', 'r', 'n'] :: .sym [';'] :: ts => andThen .ret (cStmts L f ts)
  | f + 1, .directive d :: .word ['f', 'o', 'r'] :: .sym ['('] :: ts => match cFor L ts with
    | some ((ty, x, lo, hi, st), ts) => match cStmts L f ts with
      | some (b, .sym ['}'] :: ts) => andThen (.loop (some d) (some ty) x lo hi st b) (cStmts L f ts)
      | _ => none
    | none => none
  | f + 1, .word ['f', 'o', 'r'] :: .sym ['('] :: ts => match cFor L ts with
    | some ((ty, x, lo, hi, st), ts) => match cStmts L f ts with
      | some (b, .sym ['}'] :: ts) => andThen (.loop none (some ty) x lo hi st b) (cStmts L f ts)
      | _ => none
    | none => none
  | f + 1, .word ['i', 'f'] :: .sym ['('] :: ts => match expression L ts with
    | some (c, .sym [')'] :: .sym ['{'] :: ts) => match cStmts L f ts with
      | some (t, .sym ['}'] :: .word ['e', 'l', 's', 'e'] :: .sym ['{'] :: ts) => match cStmts L f ts with
        | some (e, .sym ['}'] :: ts) => andThen (.cond c t e) (cStmts L f ts)
        | _ => none
      | some (t, .sym ['}'] :: ts) => andThen (.cond c t .done) (cStmts L f ts)
      | _ => none
    | _ => none
  | f + 1, .word ty :: .word x :: .sym ['='] :: ts =>
    if isType ty && isName L x then match expression L ts with
      | some (e, .sym [';'] :: ts) => andThen (.decl ty x e) (cStmts L f ts)
      | _ => none
    else none
  | f + 1, ts => match expression L ts with
    | some (l, .sym ['='] :: ts) => match expression L ts with
      | some (e, .sym [';'] :: ts) => andThen (.assign l e) (cStmts L f ts)
      | _ => none
    | _ => none

mutual
/-- Python statements indented by `n`, up to a line indented less or the end. -/
def pyBlock : Nat → Nat → List Tok → Option (Sx × List Tok)
  | 0, _, _ => none
  | _ + 1, _, [] => some (.done, [])
  | f + 1, n, .line m :: ts =>
    if m < n then some (.done, .line m :: ts)
    else if n < m then none
    else match ts with
      | .word ['r', 'e', 't', 'u', 'r', 'n'] :: ts => andThen .ret (pyBlock f n ts)
      | .word ['f', 'o', 'r'] :: .word x :: .word ['i', 'n'] :: ts =>
        if isName .python x then match expression .python ts with
          | some (.app (.name ['r', 'a', 'n', 'g', 'e']) (.bin .comma (.bin .comma lo hi) st), .sym [':'] :: ts) => match pySuite f n ts with
            | some (b, ts) => andThen (.loop none none x lo hi st b) (pyBlock f n ts)
            | none => none
          | _ => none
        else none
      | .word ['i', 'f'] :: ts => match expression .python ts with
        | some (c, .sym [':'] :: ts) => match pySuite f n ts with
          | some (t, .line k :: .word ['e', 'l', 's', 'e'] :: .sym [':'] :: ts) =>
            if k = n then match pySuite f n ts with
              | some (e, ts) => andThen (.cond c t e) (pyBlock f n ts)
              | none => none
            else andThen (.cond c t .done) (pyBlock f n (.line k :: .word ['e', 'l', 's', 'e'] :: .sym [':'] :: ts))
          | some (t, ts) => andThen (.cond c t .done) (pyBlock f n ts)
          | none => none
        | _ => none
      | ts => match expression .python ts with
        | some (l, .sym ['='] :: ts) => match expression .python ts with
          | some (e, ts) => andThen (.assign l e) (pyBlock f n ts)
          | none => none
        | _ => none
  | _ + 1, _, _ => none

/-- The indented block after a colon: at least one line, indented more than `n`. -/
def pySuite : Nat → Nat → List Tok → Option (Sx × List Tok)
  | 0, _, _ => none
  | f + 1, n, .line m :: ts => if n < m then pyBlock f m (.line m :: ts) else none
  | _ + 1, _, _ => none
end

/-! ### Programs -/

/-- A file with one function: the imported modules or included headers, the specifiers before the name, the parameters with their types, the body. -/
structure Prog where
  imports : List Str
  linkage : List Str
  name : Str
  params : List (Option Str × Str)
  body : Sx
deriving DecidableEq, Repr

/-- Parameters, after the opening parenthesis, to the closing one. -/
def pyParams : List Tok → Option (List (Option Str × Str) × List Tok)
  | .word x :: .sym [')'] :: ts => if isName .python x then some ([(none, x)], ts) else none
  | .word x :: .sym [','] :: ts => if isName .python x then match pyParams ts with
      | some (r, ts) => some ((none, x) :: r, ts)
      | none => none
    else none
  | _ => none

def cParams (L : Lang) : List Tok → Option (List (Option Str × Str) × List Tok)
  | .word ty :: .sym ['*'] :: .word x :: .sym [')'] :: ts => if isType ty && isName L x then some ([(some ty, x)], ts) else none
  | .word ty :: .sym ['*'] :: .word x :: .sym [','] :: ts => if isType ty && isName L x then match cParams L ts with
      | some (r, ts) => some ((some ty, x) :: r, ts)
      | none => none
    else none
  | _ => none

/-- A Python file: imports, one function. -/
def pyProg : List Tok → Option Prog
  | .line 0 :: .word ['i', 'm', 'p', 'o', 'r', 't'] :: .word m :: ts => match pyProg ts with
    | some p => if isName .python m then some { p with imports := m :: p.imports } else none
    | none => none
  | .line 0 :: .word ['d', 'e', 'f'] :: .word nm :: .sym ['('] :: ts => match pyParams ts with
    | some (ps, .sym [':'] :: ts) => match pySuite (2 * ts.length + 2) 0 ts with
      | some (b, []) => if isName .python nm then some ⟨[], [], nm, ps, b⟩ else none
      | _ => none
    | _ => none
  | _ => none

/-- The function definition of a C or CUDA file, after its specifiers. -/
def cFunc (L : Lang) (linkage : List Str) : List Tok → Option Prog
  | .word ['v', 'o', 'i', 'd'] :: .word nm :: .sym ['('] :: ts => match cParams L ts with
    | some (ps, .sym ['{'] :: ts) => match cStmts L (ts.length + 1) ts with
      | some (b, [.sym ['}']]) => if isName L nm then some ⟨[], linkage, nm, ps, b⟩ else none
      | _ => none
    | _ => none
  | _ => none

/-- A C or CUDA file: includes, one function. -/
def cProg (L : Lang) : List Tok → Option Prog
  | .directive d :: ts => match cProg L ts with
    | some p => some { p with imports := d :: p.imports }
    | none => none
  | .word ['e', 'x', 't', 'e', 'r', 'n'] :: .str s :: .word sp :: ts => if L = .cuda ∧ sp = "__global__".toList then cFunc L [s, sp] ts else none
  | ts => cFunc L [] ts

/-- The syntax tree of a text, if it is a program of the subset. -/
def parse (L : Lang) (s : Str) : Option Prog := if L = .python then pyProg (lex L s) else cProg L (lex L s)

/-! ### What a kernel is meant to be -/

/-- An integer literal. -/
def litEx (c : Int) : Ex := if c < 0 then .neg (.int c.natAbs) else .int c.natAbs

/-- The operator for an operation; both divisions are `/` in C. -/
def opOf : Lang → Ops → BOp
  | _, .Add => .add
  | _, .Sub => .sub
  | _, .Mul => .mul
  | _, .Truediv => .div
  | .python, .Floordiv => .idiv
  | _, .Floordiv => .div
  | _, .Mod => .mod
  | _, .And => .and
  | _, .Or => .or
  | _, .Eq => .eq
  | _, .Gt => .gt
  | _, .Ge => .ge
  | _, .Lt => .lt
  | _, .Le => .le
  | _, _ => .comma

def binEx (L : Lang) (op : Ops) (l r : Ex) : Ex := if op = .Pow then .app (.name "pow".toList) (.bin .comma l r) else .bin (opOf L op) l r

def fnName : Ops → Str
  | .Sin => "sin".toList
  | .Cos => "cos".toList
  | .Exp => "exp".toList
  | .Log => "log".toList
  | .Sqrt => "sqrt".toList
  | _ => []

def unEx (L : Lang) (op : Ops) (e : Ex) : Ex :=
  if op = .Neg then .neg e
  else if L = .python then .app (.member (.name "math".toList) (fnName op)) e
  else .app (.name (fnName op)) e

def var (x : VName) : Ex := .name x.chars

end Syntax

open Syntax

/-- The syntax tree of an index expression. -/
def KI.ex (L : Lang) : KI → Ex
  | .var x => Syntax.var x
  | .lit c => litEx c
  | .bin op l r => binEx L op (l.ex L) (r.ex L)

/-- The syntax tree of a value expression. -/
def KD.ex (L : Lang) : KD → Ex
  | .var x => Syntax.var x
  | .lit c => litEx c
  | .zero true => .int 0
  | .zero false => .dec 0 0
  | .un op e => unEx L op (e.ex L)
  | .bin op l r => binEx L op (l.ex L) (r.ex L)
  | .read a i => .index (Syntax.var a) (i.ex L)

/-- Declaring a variable is an assignment in Python. -/
def Syntax.declare (L : Lang) (dt : DType) (x : VName) (e : Ex) (next : Sx) : Sx :=
  if L = .python then .assign (Syntax.var x) e next else .decl (LangSpec.typename dt) x.chars e next

/-- The directive that asks for an execution mode. -/
def Syntax.directiveOf : Lang → LoopExec → Option Str
  | .clang, .parallel => some "pragma omp parallel for".toList
  | .clang, .vectorize => some "pragma clang loop vectorize(enable)".toList
  | .clang, .unroll k => some ("pragma clang loop unroll_count(".toList ++ intText k ++ ")".toList)
  | .cuda, .unroll k => some ("pragma unroll ".toList ++ intText k)
  | _, _ => none

/-- The statements of a kernel, followed by `next`. -/
def Stmt.sx (L : Lang) : Stmt → Sx → Sx
  | .skip, k => k
  | .seq s t, k => s.sx L (t.sx L k)
  | .initI x e, k => Syntax.declare L .int64 x (e.ex L) k
  | .initD dt x e, k => Syntax.declare L dt x (e.ex L) k
  | .set x e, k => .assign (Syntax.var x) (e.ex L) k
  | .store i e, k => .assign (.index (Syntax.var .out) (i.ex L)) (e.ex L) k
  | .loop m x n b, k => .loop (Syntax.directiveOf L m) (if L = .python then none else some "int".toList) x.chars (litEx 0) (litEx n) (litEx 1) (b.sx L .done) k
  | .ite c t f, k => .cond (c.ex L) (t.sx L .done) (f.sx L .done) k
  | .guardRet c, k => .cond (c.ex L) (.ret .done) .done k
  | .gpuIdx x thread d, k =>
    Syntax.declare L .int64 x (.member (.name (if thread then "threadIdx".toList else "blockIdx".toList)) (LangSpec.dimText d)) k

/-- The program a kernel is meant to be. -/
def Kernel.program (L : Lang) (name : Str) (K : Kernel) : Prog where
  imports := if L = .python then ["math".toList] else ["include <stdint.h>".toList, "include <math.h>".toList]
  linkage := if L = .cuda then ["C".toList, "__global__".toList] else []
  name := name
  params := K.params.map fun p => (if L = .python then none else some (LangSpec.typename p.2), p.1.chars)
  body := K.body.sx L .done

end Whale
