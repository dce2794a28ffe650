import Verif.Proofs.ParsePy
/-
Printed kernels parse back.
-/
namespace Whale
open LangSpec Syntax
namespace Syntax

theorem join_snoc (x : Str) : ∀ l : List Str, join ['\n'] (l ++ [x]) = unl l ++ x
  | [] => rfl
  | [a] => by simp [join, unl]
  | a :: b :: l => by
    have := join_snoc x (b :: l)
    rw [List.cons_append] at this
    rw [List.cons_append, List.cons_append, join, this, unl_cons, unl_cons, unl_cons]
    · simp
    · simp

/-! ### parameters -/

/-- Tokens separated by commas. -/
def commaToks : List (List Tok) → List Tok
  | [] => []
  | [a] => a
  | a :: r => a ++ (.sym [','] :: commaToks r)

theorem commaToks_cons {a b : List Tok} {r : List (List Tok)} : commaToks (a :: b :: r) = a ++ (.sym [','] :: commaToks (b :: r)) := by
  rw [commaToks]; simp

theorem lx_join {α : Type} {L : Lang} (g : α → Str) (t : α → List Tok) (h : ∀ a, Lx L (g a) (t a)) : ∀ (a : α) (l : List α), Lx L (join ", ".toList ((a :: l).map g)) (commaToks ((a :: l).map t))
  | a, [] => h a
  | a, b :: l => by
    have := (h a).comma (lx_join g t h b l)
    simp only [List.map_cons] at this ⊢
    rw [LangSpec.join, commaToks_cons]
    · exact this
    · simp

def pyParamToks (p : VName × DType) : List Tok := [.word p.1.chars]
def cParamToks (p : VName × DType) : List Tok := [.word (typename p.2), .sym ['*'], .word p.1.chars]

theorem lx_cParam {L : Lang} (p : VName × DType) : Lx L (LangSpec.cParam (p.1.chars, p.2)) (cParamToks p) := by
  intro r hr
  have e : LangSpec.cParam (p.1.chars, p.2) ++ r = typename p.2 ++ ("* ".toList ++ (p.1.chars ++ r)) := by simp [LangSpec.cParam]
  have e0 : ∀ X, lexGo L (.word (typename p.2)) ("* ".toList ++ X) = .word (typename p.2) :: .sym ['*'] :: lexGo L .none X := by
    intro X; cases L <;> rfl
  rw [e, (typename_word p.2).lexGo, e0, Lx.word (chars_word p.1) r hr]; rfl

theorem pyParams_ok (rest : List Tok) : ∀ (p : VName × DType) (l : List (VName × DType)),
    pyParams (commaToks ((p :: l).map pyParamToks) ++ (.sym [')'] :: rest)) = some ((p :: l).map fun p => (none, p.1.chars), rest)
  | p, [] => by
    show pyParams (.word p.1.chars :: .sym [')'] :: rest) = _
    rw [pyParams, var_isName, if_pos rfl]; rfl
  | p, q :: l => by
    have ih := pyParams_ok rest q l
    simp only [List.map_cons] at ih ⊢
    rw [commaToks_cons]
    simp only [pyParamToks, List.append_assoc, List.cons_append, List.nil_append] at ih ⊢
    rw [pyParams, var_isName, if_pos rfl, ih]

theorem cParams_ok {L : Lang} (rest : List Tok) : ∀ (p : VName × DType) (l : List (VName × DType)),
    cParams L (commaToks ((p :: l).map cParamToks) ++ (.sym [')'] :: rest)) = some ((p :: l).map fun p => (some (typename p.2), p.1.chars), rest)
  | p, [] => by
    show cParams L (.word (typename p.2) :: .sym ['*'] :: .word p.1.chars :: .sym [')'] :: rest) = _
    rw [cParams, var_isName, typename_isType, Bool.and_self, if_pos rfl]; rfl
  | p, q :: l => by
    have ih := cParams_ok (L := L) rest q l
    simp only [List.map_cons] at ih ⊢
    rw [commaToks_cons]
    simp only [cParamToks, List.append_assoc, List.cons_append, List.nil_append] at ih ⊢
    rw [cParams, var_isName, typename_isType, Bool.and_self, if_pos rfl, ih]

/-! ### the first line of the function -/

theorem start_eq_py (name J : Str) : "def ".toList ++ name ++ "(".toList ++ J ++ "):".toList = "def".toList ++ " ".toList ++ (name ++ "(".toList ++ J ++ ")".toList) ++ ":".toList := by simp

theorem kernStart_py (name : Str) (ps : List (Str × DType)) : kernStart .python name ps = "def ".toList ++ name ++ "(".toList ++ join ", ".toList (ps.map (·.1)) ++ "):".toList := rfl
theorem kernStart_c (name : Str) (ps : List (Str × DType)) : kernStart .clang name ps = "void ".toList ++ name ++ "(".toList ++ join ", ".toList (ps.map LangSpec.cParam) ++ ") {".toList := rfl
theorem kernStart_cuda (name : Str) (ps : List (Str × DType)) :
    kernStart .cuda name ps = "extern \"C\" __global__ ".toList ++ ("void ".toList ++ name ++ "(".toList ++ join ", ".toList (ps.map LangSpec.cParam) ++ ") {".toList) := rfl

theorem Lx.start_py {name : Str} (hw : IsWord name) (p : VName × DType) (l : List (VName × DType)) :
    Lx .python (kernStart .python name ((p :: l).map fun p => (p.1.chars, p.2))) (.word "def".toList :: .word name :: .sym ['('] :: (commaToks ((p :: l).map pyParamToks) ++ [.sym [')'], .sym [':']])) := by
  have h := ((Lx.word (s := "def".toList) (isWord_lit (by decide))).space ((Lx.word hw).call (lx_join (L := .python) (fun p : VName × DType => p.1.chars) pyParamToks (fun a => Lx.word (chars_word a.1)) p l))).colon
  have e : (((p :: l).map fun p => (p.1.chars, p.2)).map (·.1) : List Str) = (p :: l).map (fun p => p.1.chars) := by simp
  rw [kernStart_py, e, start_eq_py]
  simpa only [List.append_assoc, List.cons_append, List.nil_append] using h

theorem Lx.fn_c {L : Lang} {name : Str} (hw : IsWord name) (p : VName × DType) (l : List (VName × DType)) :
    Lx L ("void ".toList ++ name ++ "(".toList ++ join ", ".toList (((p :: l).map fun p => (p.1.chars, p.2)).map LangSpec.cParam) ++ ") {".toList)
      (.word "void".toList :: .word name :: .sym ['('] :: (commaToks ((p :: l).map cParamToks) ++ [.sym [')'], .sym ['{']])) := by
  have h := ((Lx.word (L := L) (s := "void".toList) (isWord_lit (by decide))).space ((Lx.word hw).call (lx_join (L := L) (fun p : VName × DType => LangSpec.cParam (p.1.chars, p.2)) cParamToks (fun a => lx_cParam a) p l)))
  have e : ((p :: l).map fun p => (p.1.chars, p.2)).map LangSpec.cParam = (p :: l).map (fun p => LangSpec.cParam (p.1.chars, p.2)) := by simp
  rw [e]
  intro r hr
  have e2 : "void ".toList ++ name ++ "(".toList ++ join ", ".toList ((p :: l).map (fun p => LangSpec.cParam (p.1.chars, p.2))) ++ ") {".toList ++ r =
      ("void".toList ++ " ".toList ++ (name ++ "(".toList ++ join ", ".toList ((p :: l).map (fun p => LangSpec.cParam (p.1.chars, p.2))) ++ ")".toList)) ++ (' ' :: '{' :: r) := by simp
  rw [e2, h _ (hard_cons (by decide) _), lex_space, lex_open (by simp)]
  simp

theorem Lx.start_cuda {name : Str} (hw : IsWord name) (p : VName × DType) (l : List (VName × DType)) :
    Lx .cuda (kernStart .cuda name ((p :: l).map fun p => (p.1.chars, p.2)))
      (.word "extern".toList :: .str "C".toList :: .word "__global__".toList :: .word "void".toList :: .word name :: .sym ['('] :: (commaToks ((p :: l).map cParamToks) ++ [.sym [')'], .sym ['{']])) := by
  intro r hr
  have h := Lx.fn_c (L := .cuda) hw p l r hr
  have e0 : ∀ X, lexGo .cuda .none ("extern \"C\" __global__ ".toList ++ X) = .word "extern".toList :: .str "C".toList :: .word "__global__".toList :: lexGo .cuda .none X := fun X => rfl
  rw [kernStart_cuda, List.append_assoc, e0, h]; rfl

/-- The text of a kernel. -/
def kernText (L : Lang) (name : Str) (K : Kernel) : Str :=
  join ['\n'] (imports L ++ (kernStart L name (K.params.map fun p => (p.1.chars, p.2)) :: (K.body.lines L 1 ++ [blockEnd L])))

theorem kernText_eq (L : Lang) (name : Str) (K : Kernel) :
    kernText L name K = unl (imports L ++ (kernStart L name (K.params.map fun p => (p.1.chars, p.2)) :: K.body.lines L 1)) ++ blockEnd L := by
  rw [kernText, ← join_snoc]; simp

theorem starts_kern (L : Lang) (name : Str) (ps : List (Str × DType)) : Starts (kernStart L name ps) := by
  cases L <;> exact ⟨_, _, rfl, by decide, by decide, by decide⟩

theorem Ls.start {L : Lang} {s : Str} {ts : List Tok} (hs : Starts s) (h : Lx L s ts) : Ls L [s] (lineTok L 0 ++ ts) := by
  have := Ls.line hs h 0
  simpa [pad] using this

theorem Ls.directive0 {L : Lang} (hL : L ≠ .python) {d : Str} (h : ∀ c ∈ d, c ≠ '\n') : Ls L ['#' :: d] [.directive d] := by
  have := Ls.directive hL h 0
  simpa [pad] using this

theorem parse_py {name : Str} (hw : IsWord name) (hn : isName .python name = true) {K : Kernel} (hp : K.params ≠ []) (hf : K.body.fits .python) (hne : K.body.nonempty = true) :
    parse .python (kernText .python name K) = some (K.program .python name) := by
  obtain ⟨p, l, hpl⟩ := List.exists_cons_of_ne_nil hp
  obtain ⟨tb, lb, pb, _⟩ := py_stmt K.body hf 1
  have h1 := Ls.start (L := .python) (starts_kern _ _ _) (Lx.start_py hw p l)
  have h0 := Ls.start (L := .python) (s := "import math".toList) ⟨_, _, rfl, by decide, by decide, by decide⟩
    ((Lx.word (s := "import".toList) (isWord_lit (by decide))).space (Lx.word (s := "math".toList) (isWord_lit (by decide))))
  have h := (h0.append (h1.append lb)) []
  rw [parse, if_pos rfl, kernText_eq, hpl, lex]
  have e : unl (imports .python ++ (kernStart .python name ((p :: l).map fun p => (p.1.chars, p.2)) :: K.body.lines .python 1)) ++ blockEnd .python =
      unl (["import math".toList] ++ ([kernStart .python name ((p :: l).map fun p => (p.1.chars, p.2))] ++ K.body.lines .python 1)) ++ [] := rfl
  rw [e, h, lineTok, if_pos rfl, show lexGo .python (.indent 0) [] = [] from rfl, List.append_nil]
  have hs := PS.suite (n := 0) pb hne (rest := []) (.inl rfl) (2 * tb.length + 2) (by omega)
  rw [List.append_nil] at hs
  simp only [List.append_assoc, List.cons_append, List.nil_append]
  rw [show ("import".toList : List Char) = ['i', 'm', 'p', 'o', 'r', 't'] from rfl, show ("def".toList : List Char) = ['d', 'e', 'f'] from rfl, pyProg, pyProg, pyParams_ok]
  simp only [hs, hn, if_true, Kernel.program, hpl]
  rw [if_pos (by decide +kernel)]; rfl

theorem parse_c {L : Lang} (hL : L ≠ .python) {name : Str} (hw : IsWord name) (hn : isName L name = true) {K : Kernel} (hp : K.params ≠ []) (hf : K.body.fits L) :
    parse L (kernText L name K) = some (K.program L name) := by
  obtain ⟨p, l, hpl⟩ := List.exists_cons_of_ne_nil hp
  obtain ⟨tb, lb, pb⟩ := c_stmt hL K.body hf 1
  have hi : Ls L (imports L) [.directive "include <stdint.h>".toList, .directive "include <math.h>".toList] := by
    have a := Ls.directive0 hL (d := "include <stdint.h>".toList) (by decide)
    have b := Ls.directive0 hL (d := "include <math.h>".toList) (by decide)
    have : imports L = ['#' :: "include <stdint.h>".toList] ++ ['#' :: "include <math.h>".toList] := by cases L <;> first | exact absurd rfl hL | rfl
    rw [this]
    exact a.append b
  have hend : lexGo L (.indent 0) (blockEnd L) = [.sym ['}']] := by cases L <;> first | exact absurd rfl hL | rfl
  have hs := pb.block [] (tb.length + 2) (by omega)
  rw [parse, if_neg hL, kernText_eq, hpl, lex]
  cases L with
  | python => exact absurd rfl hL
  | clang =>
    have h1 := Ls.start (L := .clang) (starts_kern .clang name ((p :: l).map fun p => (p.1.chars, p.2))) (by rw [kernStart_c]; exact Lx.fn_c (L := .clang) hw p l)
    have h := (hi.append (h1.append lb)) (blockEnd .clang)
    have e : unl (imports .clang ++ (kernStart .clang name ((p :: l).map fun p => (p.1.chars, p.2)) :: K.body.lines .clang 1)) ++ blockEnd .clang =
        unl (imports .clang ++ ([kernStart .clang name ((p :: l).map fun p => (p.1.chars, p.2))] ++ K.body.lines .clang 1)) ++ blockEnd .clang := rfl
    rw [e, h, hend, lineTok, if_neg hL]
    simp only [List.append_assoc, List.cons_append, List.nil_append]
    rw [cProg, cProg, cProg]
    · rw [show ("void".toList : List Char) = ['v', 'o', 'i', 'd'] from rfl, cFunc, cParams_ok]
      simp only [List.length_append, List.length_cons, List.length_nil, hs, hn, if_true, Kernel.program, hpl]
      rfl
    · simp
    · simp
  | cuda =>
    have h1 := Ls.start (L := .cuda) (starts_kern _ _ _) (Lx.start_cuda hw p l)
    have h := (hi.append (h1.append lb)) (blockEnd .cuda)
    have e : unl (imports .cuda ++ (kernStart .cuda name ((p :: l).map fun p => (p.1.chars, p.2)) :: K.body.lines .cuda 1)) ++ blockEnd .cuda =
        unl (imports .cuda ++ ([kernStart .cuda name ((p :: l).map fun p => (p.1.chars, p.2))] ++ K.body.lines .cuda 1)) ++ blockEnd .cuda := rfl
    rw [e, h, hend, lineTok, if_neg hL]
    simp only [List.append_assoc, List.cons_append, List.nil_append]
    rw [cProg, cProg, show ("extern".toList : List Char) = ['e', 'x', 't', 'e', 'r', 'n'] from rfl, cProg, if_pos ⟨rfl, rfl⟩]
    rw [show ("void".toList : List Char) = ['v', 'o', 'i', 'd'] from rfl, cFunc, cParams_ok]
    simp only [List.length_append, List.length_cons, List.length_nil, hs, hn, if_true, Kernel.program, hpl]
    rfl

theorem kernName_word {d : Str} (h : ∀ c ∈ d, wordChar c = true) : IsWord (Text.kernName d) :=
  isWord_append (isWord_lit (by decide)) (fun c hc => h c (List.mem_of_mem_take hc))

theorem kernName_isName (L : Lang) (d : Str) : isName L (Text.kernName d) = true := by
  have hk : ∀ k ∈ (keywords L).map String.toList, k.take 5 ≠ "kern_".toList := by cases L <;> decide +kernel
  simp only [isName, Bool.not_eq_true', List.contains_eq_mem, decide_eq_false_iff_not]
  intro hm
  exact hk _ hm (by simp [Text.kernName])

end Syntax
end Whale
