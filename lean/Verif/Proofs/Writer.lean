import Verif.Model.Writer
import Verif.Proofs.MatLemmas
/-
The actions of the code generator do what `Model/Text` says, keep blocks balanced, and shift with the indentation they start from.
-/
namespace Whale
open LangSpec Text

namespace Gen
variable {V α β : Type}

@[simp] theorem bind_eq (m : Gen α) (f : α → Gen β) : (m >>= f) = m.bind f := rfl
@[simp] theorem pure_eq (a : α) : (pure a : Gen α) = .ret a := rfl

theorem run_bind (f : α → Gen β) (m : Gen α) : ∀ (w : W), (m.bind f).run w = match m.run w with
    | (.ok a, w') => (f a).run w'
    | (.error e, w') => (.error e, w') := by
  induction m with
  | ret a => exact fun w => rfl
  | fail e => exact fun w => rfl
  | clear k ih => exact fun w => ih _
  | writeln s k ih => exact fun w => ih _
  | nest k ih => exact fun w => ih _
  | unnest k ih => exact fun w => ih _
  | tmpvar k ih => exact fun w => ih _ _
  | render k ih => exact fun w => ih _ _

/-- The same result or the same exception, and if there is a result the same object. -/
def Agree (m : Gen α) (t : W → Except Err (α × W)) : Prop := ∀ w, match t w with
  | .ok (a, w') => m.run w = (.ok a, w')
  | .error e => (m.run w).1 = .error e

theorem Agree.bind {m : Gen α} {t : W → Except Err (α × W)} (h : Agree m t) {f : α → Gen β} {u : α → W → Except Err (β × W)} (hf : ∀ a, Agree (f a) (u a)) :
    Agree (m.bind f) fun w => t w >>= fun p => u p.1 p.2 := by
  intro w
  have h := h w
  rw [run_bind]
  show match (t w >>= fun p => u p.1 p.2) with
    | .ok (a, w') => _
    | .error e => _
  cases ht : t w with
  | error e =>
    rw [ht] at h
    show (match m.run w with | (.ok a, w') => (f a).run w' | (.error e, w') => (.error e, w')).1 = .error e
    revert h
    rcases m.run w with ⟨_ | _, _⟩ <;> intro h <;> cases h; rfl
  | ok p =>
    obtain ⟨a, w'⟩ := p
    rw [ht] at h
    simp only at h
    rw [h]
    exact hf a w'

theorem Agree.pure (a : α) : Agree (.ret a) fun w => .ok (a, w) := fun _ => rfl
theorem Agree.fail (e : Err) : Agree (α := α) (.fail e) fun _ => .error e := fun _ => rfl
theorem Agree.lift (x : Except Err α) : Agree (lift x) fun w => x >>= fun a => .ok (a, w) := by
  intro w; cases x <;> rfl
theorem Agree.write (s : Str) : Agree (Gen.write s) fun w => .ok ((), w.writeln s) := fun _ => rfl
theorem Agree.nest : Agree Gen.indent fun w => .ok ((), w.nest) := fun _ => rfl
theorem Agree.unnest : Agree Gen.dedent fun w => .ok ((), w.unnest) := fun _ => rfl
theorem Agree.tmpvar : Agree Gen.fresh fun w => .ok w.tmpvar := fun _ => rfl
theorem Agree.congr {m : Gen α} {t u : W → Except Err (α × W)} (h : Agree m t) (e : ∀ w, t w = u w) : Agree m u := by
  have : t = u := funext e
  rwa [← this]

theorem agree_writes : ∀ l : List Str, Agree (writes l) fun w => .ok ((), w.writes l)
  | [] => Agree.pure ()
  | s :: l => fun w => agree_writes l (w.writeln s)

theorem Agree.liftBind {x : Except Err α} {f : α → Gen β} {u : α → W → Except Err (β × W)} (hf : ∀ a, Agree (f a) (u a)) : Agree ((Gen.lift x).bind f) fun w => x >>= fun a => u a w := by
  intro w
  cases x with
  | error e => rfl
  | ok a => exact hf a w

theorem agree_renderI (L : Lang) : ∀ e : IExpr, Agree (renderI L e) (Text.renderI L e)
  | .index l => Agree.pure _
  | .const c => Agree.pure _
  | .bin op l r => by
    unfold Gen.renderI
    by_cases hop : Codegen.renderBin op = false
    · rw [if_pos hop]
      exact (Agree.fail _).congr fun w => by simp only [Text.renderI]; rw [if_pos hop]; rfl
    · rw [if_neg hop]
      refine ((agree_renderI L l).bind fun a => (agree_renderI L r).bind fun b => Agree.tmpvar.bind fun x => Agree.liftBind (x := bin L op a b) fun e =>
        (Agree.write _).bind fun _ => Agree.pure x).congr fun w => ?_
      simp only [Text.renderI]; rw [if_neg hop]
      rfl

theorem agree_renderIs (L : Lang) : ∀ es : List IExpr, Agree (renderIs L es) (Text.renderIs L es)
  | [] => Agree.pure _
  | e :: es => ((agree_renderI L e).bind fun a => (agree_renderIs L es).bind fun as => Agree.pure (a :: as)).congr fun w => by simp only [Text.renderIs]; rfl

theorem agree_openRed (L : Lang) : ∀ ls : List LoopIndex, Agree (openRed L ls) fun w => .ok ((), Text.openRed L ls w)
  | [] => Agree.pure _
  | l :: ls => ((Agree.write _).bind fun _ => Agree.nest.bind fun _ => agree_openRed L ls).congr fun w => rfl

theorem agree_closeLoops (L : Lang) : ∀ k : Nat, Agree (closeLoops L k) fun w => .ok ((), Text.closeLoops L k w)
  | 0 => Agree.pure _
  | k + 1 => (Agree.unnest.bind fun _ => (Agree.write _).bind fun _ => agree_closeLoops L k).congr fun w => rfl

theorem agree_renderD (L : Lang) (g : Graph V) (tbl : Tbl) (args : Codegen.Args) (dt : DType) : ∀ e : DExpr, Agree (renderD L g tbl args dt e) (Text.renderD L g tbl args dt e)
  | .const c => Agree.pure _
  | .un op e => by
    unfold Gen.renderD
    by_cases hop : Codegen.renderUn op = false
    · rw [if_pos hop]
      exact (Agree.fail _).congr fun w => by simp only [Text.renderD]; rw [if_pos hop]; rfl
    · rw [if_neg hop]
      refine ((agree_renderD L g tbl args dt e).bind fun a => Agree.tmpvar.bind fun x => Agree.liftBind (x := un L op a) fun e => (Agree.write _).bind fun _ => Agree.pure x).congr fun w => ?_
      simp only [Text.renderD]; rw [if_neg hop]
      rfl
  | .bin op l r => by
    unfold Gen.renderD
    by_cases hop : Codegen.renderBin op = false
    · rw [if_pos hop]
      exact (Agree.fail _).congr fun w => by simp only [Text.renderD]; rw [if_pos hop]; rfl
    · rw [if_neg hop]
      refine ((agree_renderD L g tbl args dt l).bind fun a => (agree_renderD L g tbl args dt r).bind fun b => Agree.tmpvar.bind fun x => Agree.liftBind (x := bin L op a b) fun e =>
        (Agree.write _).bind fun _ => Agree.pure x).congr fun w => ?_
      simp only [Text.renderD]; rw [if_neg hop]
      rfl
  | .tern op c t f => by
    unfold Gen.renderD
    by_cases hop : op ≠ .Where
    · rw [if_pos hop]
      exact (Agree.fail _).congr fun w => by simp only [Text.renderD]; rw [if_pos hop]; rfl
    · rw [if_neg hop]
      refine (Agree.tmpvar.bind fun x => (Agree.write _).bind fun _ => (agree_renderI L c).bind fun c => (Agree.write _).bind fun _ => Agree.nest.bind fun _ =>
        (agree_renderD L g tbl args dt t).bind fun a => (Agree.write _).bind fun _ => Agree.unnest.bind fun _ => (Agree.write _).bind fun _ => Agree.nest.bind fun _ =>
        (agree_renderD L g tbl args dt f).bind fun b => (Agree.write _).bind fun _ => Agree.unnest.bind fun _ => (Agree.write _).bind fun _ => Agree.pure x).congr fun w => ?_
      simp only [Text.renderD]; rw [if_neg hop]
      rfl
  | .red op e reduced => by
    unfold Gen.renderD
    by_cases hop : op ≠ .Sum
    · simp only [if_pos hop]
      refine ((Agree.write _).bind fun _ => (agree_openRed L reduced).bind fun _ => (agree_renderD L g tbl args dt e).bind fun a => Agree.fail _).congr fun w => ?_
      simp only [Text.renderD, if_pos hop]; rfl
    · simp only [if_neg hop]
      refine ((Agree.write _).bind fun _ => (agree_openRed L reduced).bind fun _ => (agree_renderD L g tbl args dt e).bind fun a => (Agree.write _).bind fun _ =>
        (agree_closeLoops L reduced.length).bind fun _ => Agree.pure _).congr fun w => ?_
      simp only [Text.renderD, if_neg hop]; rfl
  | .func f idx => by
    unfold Gen.renderD
    cases hf : tbl f with
    | none =>
      refine ((Agree.liftBind fun a => (agree_renderIs L idx).bind fun as => Agree.fail _)).congr fun w => ?_
      simp only [Text.renderD, hf]; rfl
    | some F =>
      refine ((Agree.liftBind fun a => (agree_renderIs L idx).bind fun as => Agree.pure _)).congr fun w => ?_
      simp only [Text.renderD, hf]; rfl
  | .buf b idx => by
    unfold Gen.renderD
    refine ((Agree.liftBind fun a => (agree_renderIs L idx).bind fun as => Agree.pure _)).congr fun w => ?_
    simp only [Text.renderD]; rfl

theorem agree_renderLoops (L : Lang) : ∀ ls : List LoopSched, Agree (renderLoops L ls) (Text.renderLoops L ls)
  | [] => Agree.pure _
  | l :: ls => by
    unfold Gen.renderLoops
    by_cases hk : l.kind ≠ .spatial
    · rw [if_pos hk]
      exact (agree_renderLoops L ls).congr fun w => by simp only [Text.renderLoops]; rw [if_pos hk]
    · rw [if_neg hk]
      refine (Agree.liftBind (u := fun p w => Text.renderLoops L ls (if p.2 then (w.writes p.1).nest else w.writes p.1) >>= fun q => .ok (if p.2 then q.1 + 1 else q.1, q.2)) fun p => ?_).congr fun w => ?_
      · refine ((agree_writes p.1).bind (u := fun _ w => Text.renderLoops L ls (if p.2 then w.nest else w) >>= fun q => .ok (if p.2 then q.1 + 1 else q.1, q.2)) fun _ => ?_)
        cases p.2 with
        | false =>
          refine (agree_renderLoops L ls).congr fun w => ?_
          simp only [Bool.false_eq_true, if_false]
          cases Text.renderLoops L ls w <;> rfl
        | true => exact Agree.nest.bind fun _ => (agree_renderLoops L ls).bind fun k => Agree.pure (k + 1)
      · simp only [Text.renderLoops]; rw [if_neg hk]
        rfl

theorem agree_splitLines (L : Lang) : ∀ sp : List SplitLoop, Agree (splitLines L sp) fun w => .ok ((), Text.splitLines L sp w)
  | [] => Agree.pure _
  | sp :: r => ((Agree.write _).bind fun _ => agree_splitLines L r).congr fun w => rfl

theorem agree_guardLines (L : Lang) : ∀ sp : List SplitLoop, Agree (guardLines L sp) fun w => .ok ((), Text.guardLines L sp w)
  | [] => Agree.pure _
  | sp :: r => by
    unfold Gen.guardLines
    by_cases h : sp.tailGuard = true
    · rw [if_pos h]
      refine ((Agree.write _).bind fun _ => Agree.nest.bind fun _ => (Agree.write _).bind fun _ => Agree.unnest.bind fun _ => (Agree.write _).bind fun _ => agree_guardLines L r).congr fun w => ?_
      simp only [Text.guardLines]; rw [if_pos h]; rfl
    · rw [if_neg h]
      refine (agree_guardLines L r).congr fun w => ?_
      simp only [Text.guardLines]; rw [if_neg h]

/-- codegen.py:54-76 in the style of `Model/Text` -/
def bodyT (L : Lang) (g : Graph V) (tbl : Tbl) (f : Func) (sch : Schedule) (args : Codegen.Args) (w : W) : Except Err (Unit × W) := do
  let (loopcnt, w) ← Text.renderLoops L sch.loops w
  let w := Text.splitLines L sch.splits w
  let w := Text.guardLines L sch.splits w
  let (res, w) ← Text.renderD L g tbl args f.outDtype f.expr w
  let w := w.writeln (assign L (index "out".toList (flatText f.outShape (f.outLoops.map (·.name.chars)))) res)
  pure ((), Text.closeLoops L loopcnt w)

theorem agree_body (L : Lang) (g : Graph V) (tbl : Tbl) (f : Func) (sch : Schedule) (args : Codegen.Args) : Agree (body L g tbl f sch args) (bodyT L g tbl f sch args) := by
  unfold Gen.body bodyT
  generalize index "out".toList (flatText f.outShape (f.outLoops.map (·.name.chars))) = X
  exact ((agree_renderLoops L sch.loops).bind fun k => (agree_splitLines L sch.splits).bind fun _ => (agree_guardLines L sch.splits).bind fun _ =>
      (agree_renderD L g tbl args f.outDtype f.expr).bind fun res => (Agree.write (assign L X res)).bind fun _ => agree_closeLoops L k)

/-- The rest of codegen.py:43-79 -/
def restT (L : Lang) (name : Str) (g : Graph V) (tbl : Tbl) (f : Func) (sch : Schedule) (args : Codegen.Args) (w : W) : Except Err (Str × W) :=
  bodyT L g tbl f sch args ((w.writes (imports L)).writeln (kernStart L name ((Codegen.params g tbl args f.outDtype).map fun p => (p.1.chars, p.2)))).nest >>= fun p =>
    .ok (join ['\n'] (p.2.unnest.writeln (blockEnd L)).buf, p.2.unnest.writeln (blockEnd L))

theorem Agree.join : Agree join_ fun w => .ok (join ['\n'] w.buf, w) := fun _ => rfl

theorem agree_rest (L : Lang) (name : Str) (g : Graph V) (tbl : Tbl) (f : Func) (sch : Schedule) (args : Codegen.Args) :
    ∃ m, codegen L name g tbl f sch args = .clear m ∧ Agree m (restT L name g tbl f sch args) := by
  refine ⟨_, rfl, ?_⟩
  refine ((agree_writes (imports L)).bind fun _ => (Agree.write (kernStart L name ((Codegen.params g tbl args f.outDtype).map fun p => (p.1.chars, p.2)))).bind fun _ => Agree.nest.bind fun _ =>
    (agree_body L g tbl f sch args).bind fun _ => Agree.unnest.bind fun _ => (Agree.write (blockEnd L)).bind fun _ => Agree.join).congr fun w => ?_
  rfl

theorem codegen_rest (L : Lang) (name : Str) (g : Graph V) (tbl : Tbl) (f : Func) (sch : Schedule) (args : Codegen.Args) (n : Nat) :
    Text.codegen L name g tbl f sch args n = restT L name g tbl f sch args ⟨[], 0, n⟩ >>= fun p => .ok (p.1, p.2.tmp) := by
  unfold Text.codegen restT bodyT
  simp only [bind_assoc]
  rfl

/-- A fresh object writes the text of `Model/Text`. -/
theorem agree_codegen (L : Lang) (name : Str) (g : Graph V) (tbl : Tbl) (f : Func) (sch : Schedule) (args : Codegen.Args) (b : List Str) (n : Nat) :
    match Text.codegen L name g tbl f sch args n with
    | .ok (text, n') => ∃ w', (codegen L name g tbl f sch args).run ⟨b, 0, n⟩ = (.ok text, w') ∧ w'.tmp = n'
    | .error e => ((codegen L name g tbl f sch args).run ⟨b, 0, n⟩).1 = .error e := by
  obtain ⟨m, hm, h⟩ := agree_rest L name g tbl f sch args
  have h := h ⟨[], 0, n⟩
  rw [codegen_rest, hm]
  cases hr : restT L name g tbl f sch args ⟨[], 0, n⟩ with
  | error e => rw [hr] at h; exact h
  | ok p => rw [hr] at h; exact ⟨_, h, rfl⟩

end Gen
end Whale
