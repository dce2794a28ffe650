import Verif.Model.Materialize
/-
Code generation depends on the counter of temporaries only through their numbers.
-/
namespace Whale
open Codegen
variable {V : Type}

def VName.shift (d : Nat) : VName → VName
  | .tmp n => .tmp (n + d)
  | x => x

def KI.shift (d : Nat) : KI → KI
  | .var x => .var (x.shift d)
  | .lit c => .lit c
  | .bin op l r => .bin op (l.shift d) (r.shift d)

def KD.shift (d : Nat) : KD → KD
  | .var x => .var (x.shift d)
  | .lit c => .lit c
  | .zero b => .zero b
  | .un op e => .un op (e.shift d)
  | .bin op l r => .bin op (l.shift d) (r.shift d)
  | .read a i => .read a (i.shift d)

def Stmt.shift (d : Nat) : Stmt → Stmt
  | .skip => .skip
  | .seq s t => .seq (s.shift d) (t.shift d)
  | .initI x e => .initI (x.shift d) (e.shift d)
  | .initD dt x e => .initD dt (x.shift d) (e.shift d)
  | .set x e => .set (x.shift d) (e.shift d)
  | .store i e => .store (i.shift d) (e.shift d)
  | .loop m x n b => .loop m (x.shift d) n (b.shift d)
  | .ite c t f => .ite (c.shift d) (t.shift d) (f.shift d)
  | .guardRet c => .guardRet (c.shift d)
  | .gpuIdx x th dd => .gpuIdx (x.shift d) th dd

def Kernel.shift (d : Nat) (K : Kernel) : Kernel := ⟨K.params, K.body.shift d⟩

/-- Renumbering a result of the generator. -/
def shiftR {α : Type} (sh : α → α) (d : Nat) (r : Except Err (Stmt × α × Nat)) : Except Err (Stmt × α × Nat) :=
  r.map fun p => (p.1.shift d, sh p.2.1, p.2.2 + d)

theorem LoopIndex.shift_name (l : LoopIndex) (d : Nat) : l.name.shift d = l.name := rfl

theorem genI_shift (d : Nat) (e : IExpr) : ∀ n, genI e (n + d) = shiftR (KI.shift d) d (genI e n) := by
  induction e with
  | index l => intro n; rfl
  | const c => intro n; rfl
  | bin op l r ihl ihr =>
    intro n
    simp only [genI]
    split
    · rfl
    · rw [ihl]
      cases genI l n with
      | error e => rfl
      | ok p =>
        obtain ⟨s1, a, n1⟩ := p
        simp only [shiftR, Except.map, pure, Except.pure, bind, Except.bind]
        rw [ihr]
        cases genI r n1 with
        | error e => rfl
        | ok q =>
          obtain ⟨s2, b, n2⟩ := q
          simp [shiftR, Except.map, Stmt.shift, KI.shift, VName.shift]; omega

theorem genIs_shift (d : Nat) (es : List IExpr) : ∀ n, genIs es (n + d) = shiftR (List.map (KI.shift d)) d (genIs es n) := by
  induction es with
  | nil => intro n; rfl
  | cons e es ih =>
    intro n
    simp only [genIs]
    rw [genI_shift]
    cases genI e n with
    | error e => rfl
    | ok p =>
      obtain ⟨s1, a, n1⟩ := p
      simp only [shiftR, Except.map, pure, Except.pure, bind, Except.bind]
      rw [ih]
      cases genIs es n1 with
      | error e => rfl
      | ok q => rfl

theorem sumKI_shift (d : Nat) (l : List KI) : ∀ k, (sumKI k l).shift d = sumKI (k.shift d) (l.map (KI.shift d)) := by
  induction l with
  | nil => intro k; rfl
  | cons x l ih => intro k; simp only [sumKI, List.foldl_cons, List.map_cons] at *; rw [ih]; rfl

theorem flatIdx_shift (d : Nat) (shape : List Int) (ns : List KI) : (flatIdx shape ns).shift d = flatIdx shape (ns.map (KI.shift d)) := by
  unfold flatIdx
  split
  · rfl
  · have : List.zipWith (fun a st => KI.bin .Mul a (.lit st)) (ns.map (KI.shift d)) (stridesFromShape shape) =
        (List.zipWith (fun a st => KI.bin .Mul a (.lit st)) ns (stridesFromShape shape)).map (KI.shift d) := by
      rw [List.zipWith_map_left, List.map_zipWith]; rfl
    rw [this]
    cases List.zipWith (fun a st => KI.bin .Mul a (.lit st)) ns (stridesFromShape shape) with
    | nil => rfl
    | cons t ts => simp only [List.map_cons]; exact sumKI_shift d ts t

theorem bufIdx_shift (d : Nat) (o : Int) (st : List Int) (ns : List KI) : (bufIdx o st ns).shift d = bufIdx o st (ns.map (KI.shift d)) := by
  unfold bufIdx
  simp only []
  rw [sumKI_shift]
  congr 1
  rw [List.zip_map_left, List.filter_map, List.map_map, List.map_map]
  rfl

theorem redLoops_shift (d : Nat) (ls : List LoopIndex) (b : Stmt) : (redLoops ls b).shift d = redLoops ls (b.shift d) := by
  induction ls with
  | nil => rfl
  | cons l ls ih => simp only [redLoops, Stmt.shift, ih]; rfl

theorem bufName_shift {args : Args} {b : Nat} {x : VName} (h : bufName args b = .ok x) (d : Nat) : x.shift d = x := by
  unfold bufName at h
  split at h <;> simp [pure, Except.pure, throw, throwThe, MonadExceptOf.throw] at h
  subst h; rfl

theorem fncName_shift {args : Args} {b : Nat} {x : VName} (h : fncName args b = .ok x) (d : Nat) : x.shift d = x := by
  unfold fncName at h
  split at h <;> simp [pure, Except.pure, throw, throwThe, MonadExceptOf.throw] at h
  subst h; rfl

theorem genD_shift (g : Graph V) (t : Tbl) (args : Args) (dt : DType) (d : Nat) (e : DExpr) :
    ∀ n, genD g t args dt e (n + d) = shiftR (KD.shift d) d (genD g t args dt e n) := by
  induction e with
  | const c => intro n; rfl
  | un op e ih =>
    intro n
    simp only [genD]
    split
    · rfl
    · rw [ih]
      cases genD g t args dt e n with
      | error e => rfl
      | ok p => obtain ⟨s, a, n1⟩ := p; simp [shiftR, Except.map, pure, Except.pure, bind, Except.bind, Stmt.shift, KD.shift, VName.shift]; omega
  | bin op l r ihl ihr =>
    intro n
    simp only [genD]
    split
    · rfl
    · rw [ihl]
      cases genD g t args dt l n with
      | error e => rfl
      | ok p =>
        obtain ⟨s, a, n1⟩ := p
        simp only [shiftR, Except.map, pure, Except.pure, bind, Except.bind]
        rw [ihr]
        cases genD g t args dt r n1 with
        | error e => rfl
        | ok q => obtain ⟨s2, b, n2⟩ := q; simp [shiftR, Except.map, Stmt.shift, KD.shift, VName.shift]; omega
  | tern op c x y ihx ihy =>
    intro n
    simp only [genD]
    split
    · rfl
    · have : n + d + 1 = n + 1 + d := by omega
      rw [this, genI_shift]
      cases genI c (n + 1) with
      | error e => rfl
      | ok p =>
        simp only [shiftR, Except.map, pure, Except.pure, bind, Except.bind]
        rw [ihx]
        cases genD g t args dt x p.2.2 with
        | error e => rfl
        | ok q =>
          simp only [shiftR, Except.map]
          rw [ihy]
          cases genD g t args dt y q.2.2 with
          | error e => rfl
          | ok r => rfl
  | red op e rs ih =>
    intro n
    simp only [genD]
    rw [ih]
    cases genD g t args dt e n with
    | error e => rfl
    | ok p =>
      simp only [shiftR, Except.map, pure, Except.pure, bind, Except.bind]
      split
      · rfl
      · simp [Stmt.shift, redLoops_shift, KD.shift, VName.shift]
  | func f idx =>
    intro n
    simp only [genD]
    cases hb : fncName args f with
    | error e => rfl
    | ok x =>
      simp only [bind, Except.bind]
      rw [genIs_shift]
      cases genIs idx n with
      | error e => rfl
      | ok p =>
        simp only [shiftR, Except.map]
        cases t f with
        | none => rfl
        | some F => simp [pure, Except.pure, KD.shift, flatIdx_shift]
  | buf b idx =>
    intro n
    simp only [genD]
    cases hb : bufName args b with
    | error e => rfl
    | ok x =>
      simp only [bind, Except.bind]
      rw [genIs_shift]
      cases genIs idx n with
      | error e => rfl
      | ok p => simp [shiftR, Except.map, pure, Except.pure, KD.shift, bufIdx_shift]

/-- Names of loop variables: never temporaries. -/
def LvOK (sch : Schedule) : Prop :=
  (∀ l ∈ sch.loops, ∀ d, l.lv.name.shift d = l.lv.name) ∧
  ∀ s ∈ sch.splits, ∀ d, s.orig.name.shift d = s.orig.name ∧ s.o.name.shift d = s.o.name ∧ s.i.name.shift d = s.i.name

theorem genLoops_shift (d : Nat) {ls : List LoopSched} (h : ∀ l ∈ ls, ∀ d, l.lv.name.shift d = l.lv.name) (b : Stmt) :
    (genLoops ls b).shift d = genLoops ls (b.shift d) := by
  induction ls with
  | nil => rfl
  | cons l ls ih =>
    have h1 := h l (by simp) d
    have h2 := ih (fun x hx => h x (by simp [hx]))
    simp only [genLoops]
    split
    · exact h2
    · cases he : l.exec <;> simp only [Stmt.shift, h1, h2]

theorem splitInits_shift (d : Nat) {ls : List SplitLoop}
    (h : ∀ s ∈ ls, ∀ d, s.orig.name.shift d = s.orig.name ∧ s.o.name.shift d = s.o.name ∧ s.i.name.shift d = s.i.name) :
    (splitInits ls).shift d = splitInits ls ∧ (splitGuards ls).shift d = splitGuards ls := by
  induction ls with
  | nil => exact ⟨rfl, rfl⟩
  | cons l ls ih =>
    have h1 := h l (by simp) d
    have h2 := ih (fun x hx => h x (by simp [hx]))
    refine ⟨by simp only [splitInits, Stmt.shift, KI.shift, h1, h2], ?_⟩
    simp only [splitGuards]
    split <;> simp only [Stmt.shift, KI.shift, h1, h2]

theorem codegen_shift {g : Graph V} {t : Tbl} {F : Func} {sch : Schedule} {args : Args} (h : LvOK sch) (d n : Nat) :
    codegen g t F sch args (n + d) = (codegen g t F sch args n).map (fun p => (p.1.shift d, p.2 + d)) := by
  unfold codegen
  rw [genD_shift]
  cases genD g t args F.outDtype F.expr n with
  | error e => rfl
  | ok p =>
    have ⟨h1, h2⟩ := splitInits_shift d h.2
    simp only [shiftR, Except.map, bind, Except.bind, pure, Except.pure, Kernel.shift, genLoops_shift d h.1, Stmt.shift, h1, h2, flatIdx_shift, List.map_map]
    rfl

end Whale
