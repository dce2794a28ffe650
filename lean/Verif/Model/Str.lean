import Verif.Model.KeyText
/-
Model of printing arrays: `ndarray.__str__` and `__repr__` (ndarray.py:372-380).
-/
namespace Whale
namespace Mat
variable {V : Type}

mutual
/-- Python's `str` of a nested list of numbers; `num` prints a number. -/
def listText (num : V → List Char) : Nested V → List Char
  | .leaf v => num v
  | .node [] => "[]".toList
  | .node (x :: xs) => '[' :: (listText num x ++ (moreText num xs ++ [']']))
/-- The second and later elements of a list. -/
def moreText (num : V → List Char) : List (Nested V) → List Char
  | [] => []
  | x :: xs => ',' :: ' ' :: (listText num x ++ moreText num xs)
end

/-- buffer.py:17 `DevBuff.__repr__` -/
def devText (w : World V) (i : Nat) : List Char := if (w.dev i).isSome then "copied".toList else "None".toList

/-- ndarray.py:378: the description of an array without data in host memory.  The buffer of an array without data in host memory has
`cpu = None`; its device buffer prints as in buffer.py:17 (a pointer to device memory is never 0). -/
def describe (w : World V) (a : Nat) : List Char :=
  opName (w.g.ctx a).op ++ " shape=".toList ++ (pyInts (w.g.shape a)).repr ++ " strides=".toList ++ (pyInts (w.g.strides a)).repr ++ " offset=".toList ++ intText (w.g.offset a) ++
    " dtype=".toList ++ dtName (w.g.dtype a) ++ " cpu=None dev=".toList ++ devText w (base w.g a)

/-- ndarray.py:374-380 `__str__`.  `self.buffer` is the buffer of the base array (ndarray.py:215) and never None, so that lines 375-376 are never reached. -/
def str (num : V → List Char) (w : World V) (a : Nat) : Except Err (List Char) :=
  match cpuBuf w (base w.g a) with
  | none => pure (describe w a)
  | some data => do
    let l ← ND.toNdlist data (w.g.shape a) (w.g.strides a) (w.g.offset a)
    pure (listText num l)

end Mat
end Whale
