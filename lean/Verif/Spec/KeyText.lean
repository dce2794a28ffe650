import Verif.Model.KeyText
/-
What the cache keys of the code have to be: plain strings, looked up by a digest.
-/
namespace Whale

/-- Python prints this character in a string as it is: printable ASCII, no quote, no backslash. -/
def plainChar (c : Char) : Bool := decide (32 ≤ c.toNat ∧ c.toNat ≤ 126) && c != '\'' && c != '\\'

mutual
/-- All strings inside are printed as they are by Python. -/
def Py.plain : Py → Bool
  | .str s => s.all plainChar
  | .tuple l => plains l
  | _ => true
def Py.plains : List Py → Bool
  | [] => true
  | x :: xs => Py.plain x && plains xs
end

/-- Kernels filed under the digest of the text of their key (materialize.py:113, kernel.py:9-25: `dict[str, Kernel]`), for any digest function `md5`. -/
def filed {D : Type} (md5 : List Char → D) (cache : List (Key × Kernel)) : List (D × Kernel) := cache.map fun p => (md5 (Mat.keyText p.1), p.2)

/-- `md5` has no collision between the texts `l`. -/
def DigestOK {D : Type} (md5 : List Char → D) (l : List (List Char)) : Prop := ∀ s ∈ l, ∀ t ∈ l, md5 s = md5 t → s = t

end Whale
