import Verif.Proofs.GenFits
import Verif.Proofs.DemoDev
import Verif.Props.Kernels
/-
C37: the text of a kernel is, under the grammar of the target language, the program it is meant to be.

The text is what the code generator writes, character by character (`Model/Text`); the grammar (`Spec/Syntax`: `parse`) covers tokens, operator precedence and associativity,
indentation or braces, declarations, loops, conditionals and the function around them, and does not refer to the code generator.
-/
namespace Whale.Props
open Whale Algo Syntax
variable {V : Type}

/-- Materializing `a` compiles, among others, the source `text` for array `f`; the kernel's statement tree is `K`. `digest` is the hexadecimal cache key. -/
def Compiles (L : Lang) (isGpu : Bool) (g : Graph V) (a f : Nat) (digest text : Str) (K : Kernel) : Prop :=
  ∃ funcs t F sch n n', convert g a = .ok (funcs, t) ∧ f ∈ funcs ∧ t f = some F ∧ Sched.schedule isGpu F = .ok sch ∧
    Text.codegen L (Text.kernName digest) g t F sch ⟨(args F.expr).1, (args F.expr).2⟩ n = .ok (text, n') ∧
    Codegen.codegen g t F sch ⟨(args F.expr).1, (args F.expr).2⟩ n = .ok (K, n')

theorem hexWord : ∀ c ∈ "0123456789abcdef".toList, wordChar c = true := by decide

/-- C37: whenever a kernel is generated its text is too (no loop form is missing from the language) – Python and C on the CPU, CUDA on the GPU –, and that text parses as exactly one
function, with the kernel's name, imports, parameters and types, whose statements and expressions are those of the kernel. -/
theorem C37_text {L : Lang} {isGpu : Bool} (hL : L = .cuda ↔ isGpu = true) {g : Graph V} {a f : Nat} {ins : List Nat} {sch : Schedule} {K : Kernel}
    (hG : Generates isGpu g a f ins sch K) {digest : Str} (hd : ∀ c ∈ digest, c ∈ "0123456789abcdef".toList) :
    ∃ text, Compiles L isGpu g a f digest text K ∧ parse L text = some (K.program L (Text.kernName digest)) := by
  obtain ⟨funcs, t, F, n, n', hc, hf, hF, rfl, hs, hk⟩ := hG
  have hm := schedule_modes hL hs
  have hw : IsWord (Text.kernName digest) := kernName_word fun c hc => hexWord c (hd c hc)
  obtain ⟨h1, h2, h3⟩ := codegen_fits hm hk
  refine ⟨_, ⟨funcs, t, F, sch, n, n', hc, hf, hF, hs, Text.codegen_tree L (Text.kernName digest) hm hk, hk⟩, ?_⟩
  cases L with
  | python => exact parse_py hw (kernName_isName _ _) h1 h2 h3
  | clang => exact parse_c (by decide) hw (kernName_isName _ _) h1 h2
  | cuda => exact parse_c (by decide) hw (kernName_isName _ _) h1 h2

/-- C37, read from the text: every source text compiled by `materialize` parses as the program of its kernel. -/
theorem C37_parse {L : Lang} {isGpu : Bool} (hL : L = .cuda ↔ isGpu = true) {g : Graph V} {a f : Nat} {digest : Str} (hd : ∀ c ∈ digest, c ∈ "0123456789abcdef".toList)
    {text : Str} {K : Kernel} (hC : Compiles L isGpu g a f digest text K) : parse L text = some (K.program L (Text.kernName digest)) := by
  obtain ⟨funcs, t, F, sch, n, n', hc, hf, hF, hs, ht, hk⟩ := hC
  have hm := schedule_modes hL hs
  have hw : IsWord (Text.kernName digest) := kernName_word fun c hc => hexWord c (hd c hc)
  obtain ⟨h1, h2, h3⟩ := codegen_fits hm hk
  rw [Text.codegen_tree L (Text.kernName digest) hm hk] at ht
  cases ht
  cases L with
  | python => exact parse_py hw (kernName_isName _ _) h1 h2 h3
  | clang => exact parse_c (by decide) hw (kernName_isName _ _) h1 h2
  | cuda => exact parse_c (by decide) hw (kernName_isName _ _) h1 h2

/-- The source of the kernel of array `f` for `materialize a`. -/
def sourceOf (L : Lang) (isGpu : Bool) (g : Graph V) (a f : Nat) (digest : Str) : Option String :=
  match convert g a with
  | .ok (_, t) => match t f with
    | some F => match Sched.schedule isGpu F with
      | .ok sch => match Text.codegen L (Text.kernName digest) g t F sch ⟨(args F.expr).1, (args F.expr).2⟩ 0 with
        | .ok (s, _) => some (String.ofList s)
        | .error _ => none
      | .error _ => none
    | none => none
  | .error _ => none


/-- The hypotheses are met, and the text is the expected one: Python. -/
example : (∃ ins sch K, Generates Demo.py.isGpu (Demo.after kdemo).g 4 4 ins sch K) ∧
    sourceOf .python false (Demo.after kdemo).g 4 4 "0123456789abcdef01".toList = some ("import math\ndef kern_0123456789abcdef(out, fnc_0, fnc_1):\n    for i in range(0, 3, 1):\n" ++
      "        for j in range(0, 2, 1):\n            tmp0 = fnc_0[i * 2 + j * 1] * fnc_1[0 * 2 + j * 1]\n            out[i * 2 + j * 1] = tmp0\n        \n    \n") :=
  ⟨genOf_exists (by decide +kernel), by decide +kernel⟩

/-- C: a parallel outer loop, a vectorized inner one, a reduction. -/
example : (∃ ins sch K, Generates false (Demo.after kdemo).g 4 2 ins sch K) ∧
    sourceOf .clang false (Demo.after kdemo).g 4 2 "0123456789abcdef01".toList = some ("#include <stdint.h>\n#include <math.h>\nvoid kern_0123456789abcdef(int64_t* out, int64_t* buf_0) {\n" ++
      "    #pragma omp parallel for\n    for (int i = 0; i < 1; i += 1) {\n        #pragma clang loop vectorize(enable)\n        for (int j = 0; j < 2; j += 1) {\n            int64_t acc = 0;\n" ++
      "            for (int ri = 0; ri < 3; ri += 1) {\n                acc = acc + buf_0[0 + j * 3 + ri * 1];\n            }\n            out[i * 2 + j * 1] = acc;\n        }\n    }\n}") :=
  ⟨genOf_exists (by decide +kernel), by decide +kernel⟩

/-- CUDA: block and thread indices, a split loop with its guard. -/
example : (∃ ins sch K, Generates true (Demo.after kdemo).g 4 2 ins sch K) ∧
    sourceOf .cuda true (Demo.after kdemo).g 4 2 "0123456789abcdef01".toList = some ("#include <stdint.h>\n#include <math.h>\nextern \"C\" __global__ void kern_0123456789abcdef(int64_t* out, int64_t* buf_0) {\n" ++
      "    int64_t i = blockIdx.x;\n    int64_t j__o = blockIdx.y;\n    int64_t j__i = threadIdx.x;\n    int64_t j = j__o * 256 + j__i;\n    if ((2 <= j)) {\n        return;\n    }\n    int64_t acc = 0;\n" ++
      "    for (int ri = 0; ri < 3; ri += 1) {\n        acc = acc + buf_0[0 + j * 3 + ri * 1];\n    }\n    out[i * 2 + j * 1] = acc;\n}") :=
  ⟨genOf_exists (by decide +kernel), by decide +kernel⟩

/-- The grammar tells programs apart: precedence, associativity, negative literals, chained comparisons, indentation, missing blocks, keywords, comments. -/
example : (expression .python (lex .clang "a - b - c * d".toList)).map (·.1) = some (.bin .sub (.bin .sub (.name ['a']) (.name ['b'])) (.bin .mul (.name ['c']) (.name ['d']))) ∧
    (expression .clang (lex .clang "a * -2 + b[i]".toList)).map (·.1) = some (.bin .add (.bin .mul (.name ['a']) (.neg (.int 2))) (.index (.name ['b']) (.name ['i']))) ∧
    (expression .clang (lex .clang "a < b == c".toList)).map (·.1) = some (.bin .eq (.bin .lt (.name ['a']) (.name ['b'])) (.name ['c'])) ∧
    (expression .python (lex .clang "a < b == c".toList)).map (·.1) = none ∧
    (parse .python "def f(x):\n    return\n".toList).map (·.body) = some (.ret .done) ∧
    parse .python "def f(x):\n".toList = none ∧ parse .python "def f(x):\nreturn\n".toList = none ∧ parse .python "def in(x):\n    return\n".toList = none ∧
    (parse .python "def f(x):\n    for i in range(0, 2, 1):\n        x = 1\n    x = 2\n".toList).map (·.body) =
      some (.loop none none ['i'] (.int 0) (.int 2) (.int 1) (.assign (.name ['x']) (.int 1) .done) (.assign (.name ['x']) (.int 2) .done)) ∧
    (parse .python "def f(x):\n    for i in range(0, 2, 1):\n        x = 1\n        x = 2\n".toList).map (·.body) =
      some (.loop none none ['i'] (.int 0) (.int 2) (.int 1) (.assign (.name ['x']) (.int 1) (.assign (.name ['x']) (.int 2) .done)) .done) ∧
    parse .python "def f(x):\n    for i in range(0, 2, 1):\n        x = 1\n      x = 2\n".toList = none ∧
    parse .clang "void f(int64_t* x) { x[0] = 1 }".toList = none ∧ parse .clang "void f(int64_t* x) { x[0] = 1;".toList = none ∧ parse .clang "void f(int64_t* x) { x[0] = y // 2; }".toList = none ∧
    (parse .clang "void f(int64_t* x) { x[0] = 1; }".toList).map (·.body) = some (.assign (.index (.name ['x']) (.int 0)) (.int 1) .done) := by
  decide +kernel

end Whale.Props
