import Verif.Model.Materialize
/-
Model of the gradient part of `/repo/ndarray.py`: every `_*_backward` rule of `Func`, and `ndarray.backward`.
The rules build new arrays with the same public operations as the user does.
-/
namespace Whale
namespace Bwd
variable {V : Type}

/-- ndarray.py:98-99 `newshape[a] = 1 for a in axis` -/
def keepShape (shape : List Int) (axis : List Nat) : List Int := axis.foldl (fun s a => s.set a 1) shape

/-- ndarray.py:95-100 `_sum_backward` -/
def sumRule (g : Graph V) (x : Nat) (axis : List Nat) (kd : Bool) (gr : Nat) : Except Err (List Nat × Graph V) := do
  let (gr, g) ← if kd then pure (gr, g) else ND.reshape g gr (keepShape (g.shape x) axis)
  let (r, g) := ND.broadcastTo g gr (g.shape x)
  pure ([r], g)

/-- ndarray.py:121-123 `added_axis`, `expanded_axis`: number of added leading axes, and their sum argument. -/
def bcastAxes (gdim : Nat) (orig : List Int) : List Int :=
  ((List.range (gdim - orig.length)) ++ (orig.zipIdx.filter (fun p => p.1 = 1)).map (fun p => p.2 + (gdim - orig.length))).map Int.ofNat

/-- ndarray.py:120-125 `_broadcast_backward` -/
def broadcastRule (g : Graph V) (x : Nat) (gr : Nat) : Except Err (List Nat × Graph V) := do
  let added := g.ndim gr - (g.shape x).length
  let (y, g) ← ND.sum g gr (.tuple (bcastAxes (g.ndim gr) (g.shape x))) true
  if added = 0 then pure ([y], g)
  else
    let (r, g) ← ND.reshape g y ((g.shape y).drop added)
    pure ([r], g)

/-- ndarray.py:148-163: the loop of `_slice_backward` over the subscript; `d` is `grad_dim`. -/
def sliceLoop (shape : List Int) : List Sub → Nat → Graph V → Nat → Except Err (Nat × Graph V)
  | .int s :: subs, d, g, gr => do
    let (gr, g) ← ND.reshape g gr ((g.shape gr).take d ++ [1] ++ (g.shape gr).drop d)
    let (gr, g) ← ND.pad g gr d s (geti shape d - s - 1)
    sliceLoop shape subs (d + 1) g gr
  | .slice a _ c :: subs, d, g, gr => do
    let (gr, g) ← if c > 1 then ND.dilate g gr d c else pure (gr, g)
    let after := geti shape d - a - geti (g.shape gr) d
    let (gr, g) ← if a > 0 ∨ after > 0 then ND.pad g gr d a after else pure (gr, g)
    sliceLoop shape subs (d + 1) g gr
  | [], _, g, gr => pure (gr, g)

/-- ndarray.py:147-164 `_slice_backward`.  `grad_dim` is increased in every iteration, so it always equals `inpdim`. -/
def sliceRule (g : Graph V) (x : Nat) (subs : List Sub) (gr : Nat) : Except Err (List Nat × Graph V) := do
  let (r, g) ← sliceLoop (g.shape x) subs 0 g gr
  pure ([r], g)

/-- ndarray.py:173-177 `_pad_backward` -/
def padRule (g : Graph V) (x : Nat) (dim before : Int) (gr : Nat) : Except Err (List Nat × Graph V) := do
  let sub := (List.range (g.ndim gr)).map fun (d : Nat) =>
    if (d : Int) = dim then RawSub.slice (some before) (some (before + geti (g.shape x) dim.toNat)) none else RawSub.slice none none none
  let (r, g) ← ND.getitem g gr sub
  pure ([r], g)

/-- ndarray.py:184-186 `_dilate_backward` -/
def dilateRule (g : Graph V) (dim step : Int) (gr : Nat) : Except Err (List Nat × Graph V) := do
  let sub := (List.range (g.ndim gr)).map fun (d : Nat) =>
    if (d : Int) = dim then RawSub.slice none none (some step) else RawSub.slice none none none
  let (r, g) ← ND.getitem g gr sub
  pure ([r], g)

/-- ndarray.py:47-63 the rules of unary operations; `t` is `self.output()`. -/
def unaryRule (A : Scalar V) (g : Graph V) (op : Ops) (t x gr : Nat) : Except Err (List Nat × Graph V) :=
  match op with
  | .Neg =>
    let (r, g) := ND.unary g .Neg gr
    pure ([r], g)
  | .Sin => do
    let (c, g) := ND.unary g .Cos x
    let (r, g) ← ND.binary g .Mul c gr
    pure ([r], g)
  | .Cos => do
    let (s, g) := ND.unary g .Sin x
    let (n, g) := ND.unary g .Neg s
    let (r, g) ← ND.binary g .Mul n gr
    pure ([r], g)
  | .Exp => do
    let (r, g) ← ND.binary g .Mul t gr
    pure ([r], g)
  | .Log => do
    let (r, g) ← ND.binary g .Truediv gr x
    pure ([r], g)
  | .Sqrt => do
    let (two, g) := ND.constScalar A g (A.host 2)
    let (m, g) ← ND.binary g .Mul t two
    let (r, g) ← ND.binary g .Truediv gr m
    pure ([r], g)
  | _ => throw .attrError                       -- no such method

/-- ndarray.py:67-82 the rules of binary operations. -/
def binaryRule (A : Scalar V) (g : Graph V) (op : Ops) (l r gr : Nat) : Except Err (List Nat × Graph V) :=
  match op with
  | .Add => pure ([gr, gr], g)
  | .Sub =>
    let (n, g) := ND.unary g .Neg gr
    pure ([gr, n], g)
  | .Mul => do
    let (a, g) ← ND.binary g .Mul gr r
    let (b, g) ← ND.binary g .Mul gr l
    pure ([a, b], g)
  | .Truediv => do
    let (a, g) ← ND.binary g .Truediv gr r
    let (n, g) := ND.unary g .Neg l
    let (two, g) := ND.constScalar A g (A.host 2)
    let (p, g) ← ND.binary g .Pow r two
    let (q, g) ← ND.binary g .Truediv n p
    let (b, g) ← ND.binary g .Mul gr q
    pure ([a, b], g)
  | .Pow => do
    let (one, g) := ND.constScalar A g (A.host 1)
    let (m, g) ← ND.binary g .Sub r one
    let (p, g) ← ND.binary g .Pow l m
    let (q, g) ← ND.binary g .Mul r p
    let (a, g) ← ND.binary g .Mul q gr
    let (p, g) ← ND.binary g .Pow l r
    let (lg, g) := ND.unary g .Log l
    let (q, g) ← ND.binary g .Mul p lg
    let (b, g) ← ND.binary g .Mul q gr
    pure ([a, b], g)
  | _ => throw .attrError                       -- no such method

/-- ndarray.py:31-34 `Func.backward`: the gradients for the inputs of array `t`, given the gradient `gr` of `t`. -/
def rule (A : Scalar V) (g : Graph V) (t gr : Nat) : Except Err (List Nat × Graph V) :=
  match g.ctx t with
  | .const => throw .attrError                  -- no `_const_backward`
  | .unary op x => unaryRule A g op t x gr
  | .binary op l r => binaryRule A g op l r gr
  | .sum x axis kd => sumRule g x axis kd gr
  | .reshape x _ => do
    let (r, g) ← ND.reshape g gr (g.shape x)
    pure ([r], g)
  | .broadcast x _ => broadcastRule g x gr
  | .slice x subs => sliceRule g x subs gr
  | .transpose _ axes => do
    let (r, g) ← ND.transpose g gr ((argsort axes).map Int.ofNat)
    pure ([r], g)
  | .contiguous _ => pure ([gr], g)
  | .pad x dim before _ => padRule g x dim before gr
  | .dilate _ dim step => dilateRule g dim step gr

/-- ndarray.py:339-343 `dfs(t)`, state = (`seen`, `funcs`); an array stands for its ctx. -/
def dfs (g : Graph V) : Nat → Nat → List Nat × List Nat → Except Err (List Nat × List Nat)
  | 0, _, _ => throw .recursion
  | fuel + 1, t, (seen, funcs) =>
    if (g.ctx t).inputs.isEmpty ∨ t ∈ seen then pure (seen, funcs)
    else do
      let (seen, funcs) ← (g.ctx t).inputs.foldlM (fun st i => dfs g fuel i st) (t :: seen, funcs)
      pure (seen, funcs ++ [t])

/-- ndarray.py:350-351 `x.grad = gx if x.grad is None else x.grad + gx` -/
def accum (w : World V) (p : Nat × Nat) : Except Err (World V) :=
  match w.grad p.1 with
  | none => pure { w with grad := Mat.upd w.grad p.1 p.2 }
  | some o => do
    let (s, g) ← ND.binary w.g .Add o p.2
    pure { w with g := g, grad := Mat.upd w.grad p.1 s }

/-- ndarray.py:348-351: one iteration of the loop over `funcs`. -/
def visit (A : Scalar V) (w : World V) (t : Nat) : Except Err (World V) :=
  match w.grad t with
  | none => throw .typeError
  | some gr => do
    let (gxs, g) ← rule A w.g t gr
    ((w.g.ctx t).inputs.zip gxs).foldlM accum { w with g := g }

/-- ndarray.py:334-335: the gradient of the root. -/
def seed (A : Scalar V) (w : World V) (y : Nat) : World V :=
  match w.grad y with
  | some _ => w
  | none =>
    let (o, g) := ND.onesLike A w.g y
    { w with g := g, grad := Mat.upd w.grad y o }

/-- ndarray.py:334-351 `backward`; fuel bounds the recursion depth. -/
def backward (A : Scalar V) (w : World V) (y : Nat) : Except Err (World V) := do
  let w := seed A w y
  let (_, funcs) ← dfs w.g (y + 1) y ([], [])
  funcs.reverse.foldlM (visit A) w

/-- ndarray.py:334-351: the worlds in which `y.backward()` may be left by an exception in the middle (Ctrl-C, out of memory), which the program catches.  `start`: nothing has
happened; `seeding`: some arrays for the gradient of the root have been made (ndarray.py:335); `seeded`: the root has its gradient, `dfs` is running; `rule`: the arrays `pre` have been
visited and the gradient rule of `t` has made some of its arrays (ndarray.py:349); `adding`: the gradients `done` of `t`'s inputs have been added and some arrays for the next one have
been made (ndarray.py:351).  Arrays that were made but not yet assigned to a `grad` are in the graph of the model (`g'`, any initial part of what the complete step makes), but nothing
refers to them. -/
inductive Stopped (A : Scalar V) (w : World V) (y : Nat) : World V → Prop
  | start : Stopped A w y w
  | seeding {g' : Graph V} : w.g <+: g' → g' <+: (seed A w y).g → Stopped A w y { w with g := g' }
  | seeded : Stopped A w y (seed A w y)
  | rule {seen funcs pre post gxs : List Nat} {t gr : Nat} {w1 : World V} {g g' : Graph V} : dfs (seed A w y).g (y + 1) y ([], []) = .ok (seen, funcs) → funcs.reverse = pre ++ t :: post →
      pre.foldlM (visit A) (seed A w y) = .ok w1 → w1.grad t = some gr → Bwd.rule A w1.g t gr = .ok (gxs, g) → w1.g <+: g' → g' <+: g → Stopped A w y { w1 with g := g' }
  | adding {seen funcs pre post gxs : List Nat} {t gr : Nat} {w1 w2 w3 : World V} {g g' : Graph V} {done rest : List (Nat × Nat)} {p : Nat × Nat} :
      dfs (seed A w y).g (y + 1) y ([], []) = .ok (seen, funcs) → funcs.reverse = pre ++ t :: post → pre.foldlM (visit A) (seed A w y) = .ok w1 → w1.grad t = some gr →
      Bwd.rule A w1.g t gr = .ok (gxs, g) → (w1.g.ctx t).inputs.zip gxs = done ++ p :: rest → done.foldlM accum { w1 with g := g } = .ok w2 → accum w2 p = .ok w3 →
      w2.g <+: g' → g' <+: w3.g → Stopped A w y { w2 with g := g' }

end Bwd
end Whale
