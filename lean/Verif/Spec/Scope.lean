import Verif.Model.Kernel
/-
Vocabulary for C35: block scoping of kernels.
-/
namespace Whale

/-- What a variable in scope holds: an index (`int64_t`), an element (of the kernel's dtype), or an array (parameter). -/
inductive Kind
  | idx | elem | arr
deriving DecidableEq, Repr

/-- The variables in scope. -/
abbrev Scope := VName → Option Kind

def Scope.add (Γ : Scope) (x : VName) (k : Kind) : Scope := fun y => if y = x then some k else Γ y

/-- An index expression that mentions only index variables in scope. -/
def KI.ok (Γ : Scope) : KI → Bool
  | .var x => Γ x == some .idx
  | .lit _ => true
  | .bin _ l r => l.ok Γ && r.ok Γ

/-- A value expression that mentions only variables in scope, as what they are. -/
def KD.ok (Γ : Scope) : KD → Bool
  | .var x => Γ x == some .elem
  | .lit _ | .zero _ => true
  | .un _ e => e.ok Γ
  | .bin _ l r => l.ok Γ && r.ok Γ
  | .read a i => Γ a == some .arr && i.ok Γ

/-- Declaring a variable: its name must not be in scope (in any enclosing block). -/
def Scope.declare (Γ : Scope) (x : VName) (k : Kind) : Option Scope := if Γ x = none then some (Γ.add x k) else none

/-- The scope after a statement; `none` if the statement uses a variable that is not declared before it in an enclosing block, uses it as something it is not, or redeclares one.
Declarations in the body of a loop or in a branch end with it. -/
def Stmt.scope : Stmt → Scope → Option Scope
  | .skip, Γ => some Γ
  | .seq s t, Γ => (s.scope Γ).bind t.scope
  | .initI x e, Γ => if e.ok Γ then Γ.declare x .idx else none
  | .initD _ x e, Γ => if e.ok Γ then Γ.declare x .elem else none
  | .set x e, Γ => if Γ x = some .elem ∧ e.ok Γ then some Γ else none
  | .store i e, Γ => if Γ .out = some .arr ∧ i.ok Γ ∧ e.ok Γ then some Γ else none
  | .loop _ x _ b, Γ => (Γ.declare x .idx).bind fun Γ' => if (b.scope Γ').isSome then some Γ else none
  | .ite c t f, Γ => if c.ok Γ ∧ (t.scope Γ).isSome ∧ (f.scope Γ).isSome then some Γ else none
  | .guardRet c, Γ => if c.ok Γ then some Γ else none
  | .gpuIdx x _ _, Γ => Γ.declare x .idx

/-- The scope in which the body of a kernel starts: its parameters. -/
def Kernel.scope0 (K : Kernel) : Scope := fun y => if y ∈ K.params.map (·.1) then some .arr else none

/-- Distinct parameters, and a well-scoped body. -/
def Kernel.WellScoped (K : Kernel) : Prop := (K.params.map (·.1)).Nodup ∧ (K.body.scope K.scope0).isSome = true

/-- The names declared or used anywhere in the kernel. -/
def KI.names : KI → List VName
  | .var x => [x]
  | .lit _ => []
  | .bin _ l r => l.names ++ r.names

def KD.names : KD → List VName
  | .var x => [x]
  | .lit _ | .zero _ => []
  | .un _ e => e.names
  | .bin _ l r => l.names ++ r.names
  | .read a i => a :: i.names

def Stmt.names : Stmt → List VName
  | .skip => []
  | .seq s t => s.names ++ t.names
  | .initI x e => x :: e.names
  | .initD _ x e => x :: e.names
  | .set x e => x :: e.names
  | .store i e => .out :: (i.names ++ e.names)
  | .loop _ x _ b => x :: b.names
  | .ite c t f => c.names ++ (t.names ++ f.names)
  | .guardRet c => c.names
  | .gpuIdx x _ _ => [x]

def Kernel.names (K : Kernel) : List VName := K.params.map (·.1) ++ K.body.names

/-- The names that exist: loop variables, the two halves of split loop variables, temporaries, the accumulator and the parameters. -/
def VName.Generated : VName → Prop
  | .splitO (.loop false _) | .splitI (.loop false _) => True
  | .splitO _ | .splitI _ => False
  | _ => True

/-- Words a variable must not be called in a kernel's text: the keywords of Python 3, C and C++ (nvcc compiles C++) and the other identifiers the emitted text uses
(modules, functions, types, CUDA variables). -/
def reserved : List String :=
  ["False", "None", "True", "and", "as", "assert", "async", "await", "break", "class", "continue", "def", "del", "elif", "else", "except", "finally", "for", "from",
   "global", "if", "import", "in", "is", "lambda", "nonlocal", "not", "or", "pass", "raise", "return", "try", "while", "with", "yield",
   "math", "range", "pow", "sin", "cos", "exp", "log", "sqrt",
   "auto", "case", "char", "const", "default", "do", "double", "enum", "extern", "float", "goto", "inline", "int", "long", "register", "restrict", "short", "signed",
   "sizeof", "static", "struct", "switch", "typedef", "union", "unsigned", "void", "volatile",
   "alignas", "alignof", "bool", "catch", "constexpr", "decltype", "delete", "explicit", "export", "false", "friend", "mutable", "namespace", "new", "noexcept",
   "nullptr", "operator", "private", "protected", "public", "template", "this", "throw", "true", "typeid", "typename", "using", "virtual", "wchar_t",
   "int32_t", "int64_t", "blockIdx", "threadIdx", "blockDim", "gridDim", "__global__"]

end Whale
