/-
Model of the variable names of generated kernels (codegen.py, algo.py, sched.py).
A name is structured data; `render` is the string that appears in the kernel text.
-/
namespace Whale

/-- Names in generated code.  `loop red pos`: algo.py:142-145 `loopvar_name(pos, prefix="r" if red)`;
`splitO v`/`splitI v`: sched.py:74-75; `tmp n`: codegen.py:34-37; `acc`: codegen.py:210;
`out`, `arg`: codegen.py:49-51, 81-85 (`"buf_" i` / `"fnc_" i`). -/
inductive VName
  | loop (red : Bool) (pos : Nat)
  | splitO (v : VName)
  | splitI (v : VName)
  | tmp (n : Nat)
  | acc
  | out
  | arg (isFn : Bool) (i : Nat)
deriving DecidableEq, Repr, Inhabited

/-- algo.py:143-144 `names[i] if i < len(names) else f"v{i}"` with `names = "ijklmnpq"`. -/
def loopLetter (i : Nat) : List Char :=
  match "ijklmnpq".toList[i]? with
  | some c => [c]
  | none => 'v' :: Nat.toDigits 10 i

/-- The text of a name, as a list of characters. -/
def VName.chars : VName → List Char
  | .loop red pos => (if red then ['r'] else []) ++ loopLetter pos
  | .splitO v => v.chars ++ "__o".toList
  | .splitI v => v.chars ++ "__i".toList
  | .tmp n => "tmp".toList ++ Nat.toDigits 10 n
  | .acc => "acc".toList
  | .out => "out".toList
  | .arg isFn i => (if isFn then "fnc_".toList else "buf_".toList) ++ Nat.toDigits 10 i

/-- The text of a name. -/
def VName.render (v : VName) : String := String.ofList v.chars

end Whale
