import Verif.Proofs.Writer
/-
Blocks are balanced: what the code generator writes, and how deep it is nested, shifts with the indentation it starts from.
-/
namespace Whale
open LangSpec Text

namespace Gen
variable {V α β : Type}

/-- Started `k` blocks deep, the program never closes a block it has not opened, ends `d` blocks deep, and only adds lines to the buffer. -/
def Bal : Nat → Gen α → Nat → Prop
  | k, .ret _, d => k = d
  | _, .fail _, _ => True
  | _, .clear _, _ => False
  | k, .writeln _ m, d => Bal k m d
  | k, .nest m, d => Bal (k + 1) m d
  | 0, .unnest _, _ => False
  | k + 1, .unnest m, d => Bal k m d
  | k, .tmpvar m, d => ∀ x, Bal k (m x) d
  | _, .render _, _ => False

theorem Bal.bind {m : Gen α} {f : α → Gen β} {d e : Nat} (hf : ∀ a, Bal d (f a) e) : ∀ {k : Nat}, Bal k m d → Bal k (m.bind f) e := by
  induction m with
  | ret a => intro k h; cases h; exact hf a
  | fail e => exact fun _ => trivial
  | clear m ih => exact fun h => h.elim
  | writeln s m ih => exact fun h => ih h
  | nest m ih => exact fun h => ih h
  | unnest m ih =>
    intro k h
    cases k with
    | zero => exact h.elim
    | succ k => exact ih h
  | tmpvar m ih => exact fun h x => ih x (h x)
  | render m ih => exact fun h => h.elim

theorem bal_lift (x : Except Err α) (k : Nat) : Bal k (lift x) k := by cases x <;> trivial
theorem Bal.liftBind {x : Except Err α} {f : α → Gen β} {k e : Nat} (hf : ∀ a, Bal k (f a) e) : Bal k ((lift x).bind f) e := (bal_lift x k).bind hf

theorem Bal.write {s : Str} {f : Unit → Gen β} {k e : Nat} (h : Bal k (f ()) e) : Bal k ((Gen.write s).bind f) e := h
theorem Bal.nest {f : Unit → Gen β} {k e : Nat} (h : Bal (k + 1) (f ()) e) : Bal k (indent.bind f) e := h
theorem Bal.unnest {f : Unit → Gen β} {k e : Nat} (h : Bal k (f ()) e) : Bal (k + 1) (dedent.bind f) e := h
theorem Bal.tmpvar {f : Str → Gen β} {k e : Nat} (h : ∀ x, Bal k (f x) e) : Bal k (fresh.bind f) e := h
theorem Bal.last {f : Unit → Gen β} {k e : Nat} (h : Bal k (f ()) e) : Bal k ((Gen.ret ()).bind f) e := h

theorem bal_writes (k : Nat) : ∀ l : List Str, Bal k (writes l) k
  | [] => rfl
  | _ :: l => bal_writes k l

theorem bal_renderI (L : Lang) (k : Nat) : ∀ e : IExpr, Bal k (renderI L e) k
  | .index l => rfl
  | .const c => rfl
  | .bin op l r => by
    unfold Gen.renderI
    split
    · trivial
    · refine (bal_renderI L k l).bind fun a => (bal_renderI L k r).bind fun b => Bal.tmpvar fun x => Bal.liftBind fun e => Bal.write ?_
      exact rfl

theorem bal_renderIs (L : Lang) (k : Nat) : ∀ es : List IExpr, Bal k (renderIs L es) k
  | [] => rfl
  | e :: es => by
    refine (bal_renderI L k e).bind fun a => (bal_renderIs L k es).bind fun as => ?_
    exact rfl

theorem bal_openRed (L : Lang) : ∀ (ls : List LoopIndex) (k : Nat), Bal k (openRed L ls) (k + ls.length)
  | [], _ => rfl
  | l :: ls, k => by
    have := bal_openRed L ls (k + 1)
    rw [show k + 1 + ls.length = k + (l :: ls).length by simp; omega] at this
    exact this

theorem bal_closeLoops (L : Lang) (k : Nat) : ∀ n : Nat, Bal (k + n) (closeLoops L n) k
  | 0 => rfl
  | n + 1 => bal_closeLoops L k n

theorem bal_renderD (L : Lang) (g : Graph V) (tbl : Tbl) (args : Codegen.Args) (dt : DType) : ∀ (e : DExpr) (k : Nat), Bal k (renderD L g tbl args dt e) k
  | .const c, _ => rfl
  | .un op e, k => by
    unfold Gen.renderD
    split
    · trivial
    · refine (bal_renderD L g tbl args dt e k).bind fun a => Bal.tmpvar fun x => Bal.liftBind fun e => Bal.write ?_
      exact rfl
  | .bin op l r, k => by
    unfold Gen.renderD
    split
    · trivial
    · refine (bal_renderD L g tbl args dt l k).bind fun a => (bal_renderD L g tbl args dt r k).bind fun b => Bal.tmpvar fun x => Bal.liftBind fun e => Bal.write ?_
      exact rfl
  | .tern op c t f, k => by
    unfold Gen.renderD
    split
    · trivial
    · refine Bal.tmpvar fun x => Bal.write ?_
      refine (bal_renderI L k c).bind fun c => ?_
      refine Bal.write ?_
      refine Bal.nest ?_
      refine (bal_renderD L g tbl args dt t (k + 1)).bind fun a => ?_
      refine Bal.write <| Bal.unnest ?_
      refine Bal.write ?_
      refine Bal.nest ?_
      refine (bal_renderD L g tbl args dt f (k + 1)).bind fun b => ?_
      refine Bal.write <| Bal.unnest <| Bal.write ?_
      exact rfl
  | .red op e reduced, k => by
    unfold Gen.renderD
    refine Bal.write <| (bal_openRed L reduced k).bind fun _ => (bal_renderD L g tbl args dt e (k + reduced.length)).bind fun a => ?_
    split
    · trivial
    · refine Bal.write <| (bal_closeLoops L k reduced.length).bind fun _ => ?_
      exact rfl
  | .func f idx, k => by
    unfold Gen.renderD
    refine Bal.liftBind fun a => (bal_renderIs L k idx).bind fun as => ?_
    split
    · trivial
    · exact rfl
  | .buf b idx, k => by
    unfold Gen.renderD
    refine Bal.liftBind fun a => (bal_renderIs L k idx).bind fun as => ?_
    exact rfl

/-- A program that opens as many blocks as it says. -/
def Opens (k : Nat) (m : Gen Nat) : Prop := ∀ (β : Type) (f : Nat → Gen β) (e : Nat), (∀ n, Bal (k + n) (f n) e) → Bal k (m.bind f) e

theorem bind_assoc' {γ : Type} (m : Gen α) (f : α → Gen β) (h : β → Gen γ) : (m.bind f).bind h = m.bind fun a => (f a).bind h := by
  induction m with
  | ret a => rfl
  | fail e => rfl
  | clear m ih => exact congrArg Gen.clear ih
  | writeln s m ih => exact congrArg (Gen.writeln s) ih
  | nest m ih => exact congrArg Gen.nest ih
  | unnest m ih => exact congrArg Gen.unnest ih
  | tmpvar m ih => exact congrArg Gen.tmpvar (funext fun x => ih x)
  | render m ih => exact congrArg Gen.render (funext fun x => ih x)

theorem opens_renderLoops (L : Lang) : ∀ (ls : List LoopSched) (k : Nat), Opens k (renderLoops L ls)
  | [], k => fun _ f e h => h 0
  | l :: ls, k => by
    intro β f e h
    unfold Gen.renderLoops
    split
    · exact opens_renderLoops L ls k _ f e h
    · simp only [bind_eq, bind_assoc']
      refine Bal.liftBind fun p => (bal_writes k p.1).bind fun _ => ?_
      split
      · show Bal (k + 1) (((renderLoops L ls).bind fun k => .ret (k + 1)).bind f) e
        rw [bind_assoc']
        refine opens_renderLoops L ls (k + 1) _ _ e fun n => ?_
        have := h (n + 1)
        rw [show k + (n + 1) = k + 1 + n by omega] at this
        exact this
      · exact opens_renderLoops L ls k _ f e h

theorem bal_splitLines (L : Lang) (k : Nat) : ∀ sp : List SplitLoop, Bal k (splitLines L sp) k
  | [] => rfl
  | sp :: r => bal_splitLines L k r

theorem bal_guardLines (L : Lang) (k : Nat) : ∀ sp : List SplitLoop, Bal k (guardLines L sp) k
  | [] => rfl
  | sp :: r => by
    unfold Gen.guardLines
    split
    · exact bal_guardLines L k r
    · exact bal_guardLines L k r

theorem bal_body (L : Lang) (g : Graph V) (tbl : Tbl) (f : Func) (sch : Schedule) (args : Codegen.Args) (k : Nat) : Bal k (body L g tbl f sch args) k := by
  refine opens_renderLoops L sch.loops k _ _ k fun n => ?_
  refine (bal_splitLines L (k + n) sch.splits).bind fun _ => (bal_guardLines L (k + n) sch.splits).bind fun _ =>
    (bal_renderD L g tbl args f.outDtype f.expr (k + n)).bind fun res => Bal.write ?_
  exact bal_closeLoops L k n

/-- The text of a kernel before it is put together: everything but the first and the last action of codegen.py:43-79. -/
def lines (L : Lang) (name : Str) (g : Graph V) (tbl : Tbl) (f : Func) (sch : Schedule) (args : Codegen.Args) : Gen Unit :=
  (writes (imports L)).bind fun _ => (Gen.write (kernStart L name ((Codegen.params g tbl args f.outDtype).map fun p => (p.1.chars, p.2)))).bind fun _ => indent.bind fun _ =>
    (body L g tbl f sch args).bind fun _ => dedent.bind fun _ => Gen.write (blockEnd L)

theorem codegen_lines (L : Lang) (name : Str) (g : Graph V) (tbl : Tbl) (f : Func) (sch : Schedule) (args : Codegen.Args) :
    codegen L name g tbl f sch args = .clear ((lines L name g tbl f sch args).bind fun _ => join_) := by
  unfold codegen lines
  simp only [bind_eq, Gen.bind, bind_assoc']

theorem bal_lines (L : Lang) (name : Str) (g : Graph V) (tbl : Tbl) (f : Func) (sch : Schedule) (args : Codegen.Args) (k : Nat) : Bal k (lines L name g tbl f sch args) k := by
  refine Bal.bind (f := fun _ => _) (fun _ => ?_) (bal_writes k (imports L))
  refine Bal.write <| Bal.nest <| (bal_body L g tbl f sch args (k + 1)).bind fun _ => Bal.unnest ?_
  exact rfl

/-- A line moved `j` levels to the right. -/
def shift (j : Nat) (s : Str) : Str := List.replicate (4 * j) ' ' ++ s

/-- The same object, but everything is indented `j` levels more. -/
structure Sh (j : Nat) (w w' : W) : Prop where
  buf : w'.buf = w.buf.map (shift j)
  ind : w'.ind = w.ind + j
  tmp : w'.tmp = w.tmp

theorem run_shift {j d : Nat} (m : Gen α) : ∀ {k : Nat} {w w' : W}, Bal k m d → w.ind = k → Sh j w w' →
    (m.run w').1 = (m.run w).1 ∧ Sh j (m.run w).2 (m.run w').2 ∧ (∀ a, (m.run w).1 = .ok a → (m.run w).2.ind = d) := by
  induction m with
  | ret a => intro k w w' hb hk h; exact ⟨rfl, h, fun _ _ => by cases hb; exact hk⟩
  | fail e => intro k w w' hb hk h; exact ⟨rfl, h, fun _ h => by cases h⟩
  | clear m ih => intro k w w' hb; exact hb.elim
  | writeln s m ih =>
    intro k w w' hb hk h
    refine ih (k := k) hb hk ⟨?_, h.ind, h.tmp⟩
    show w'.buf ++ [_] = (w.buf ++ [_]).map (shift j)
    rw [h.buf, h.ind, List.map_append]
    simp only [List.map_cons, List.map_nil, shift, ← List.append_assoc, List.replicate_append_replicate]
    rw [show 4 * (w.ind + j) = 4 * j + 4 * w.ind by omega]
  | nest m ih => intro k w w' hb hk h; exact ih (k := k + 1) hb (by show w.ind + 1 = _; rw [hk]) ⟨h.buf, by show w'.ind + 1 = w.ind + 1 + j; rw [h.ind]; omega, h.tmp⟩
  | unnest m ih =>
    intro k w w' hb hk h
    cases k with
    | zero => exact hb.elim
    | succ k => exact ih (k := k) hb (by show w.ind - 1 = _; rw [hk]; rfl) ⟨h.buf, by show w'.ind - 1 = w.ind - 1 + j; rw [h.ind]; omega, h.tmp⟩
  | tmpvar m ih =>
    intro k w w' hb hk h
    have e : w'.tmpvar.1 = w.tmpvar.1 := by show (VName.tmp w'.tmp).chars = _; rw [h.tmp]; rfl
    show ((m w'.tmpvar.1).run w'.tmpvar.2).1 = _ ∧ _
    rw [e]
    have := ih w.tmpvar.1 (k := k) (w := w.tmpvar.2) (w' := w'.tmpvar.2) (hb _) hk ⟨h.buf, h.ind, by show w'.tmp + 1 = w.tmp + 1; rw [h.tmp]⟩
    refine ⟨this.1, ?_, this.2.2⟩
    show Sh j _ ((m w'.tmpvar.1).run w'.tmpvar.2).2
    rw [e]; exact this.2.1
  | render m ih => intro k w w' hb; exact hb.elim

/-- Stopped anywhere, no block is closed that was open before. -/
theorem stop_ind {j d : Nat} (m : Gen α) : ∀ {k : Nat} {w : W} (n : Nat), Bal k m d → w.ind = j + k → j ≤ (m.stop n w).ind := by
  induction m with
  | ret a => intro k w n hb hk; cases n <;> (show j ≤ w.ind; omega)
  | fail e => intro k w n hb hk; cases n <;> (show j ≤ w.ind; omega)
  | clear m ih => intro k w n hb; exact hb.elim
  | writeln s m ih =>
    intro k w n hb hk
    cases n with
    | zero => show j ≤ w.ind; omega
    | succ n => exact ih (k := k) n hb hk
  | nest m ih =>
    intro k w n hb hk
    cases n with
    | zero => show j ≤ w.ind; omega
    | succ n => exact ih (k := k + 1) n hb (by show w.ind + 1 = _; omega)
  | unnest m ih =>
    intro k w n hb hk
    cases n with
    | zero => show j ≤ w.ind; omega
    | succ n =>
      cases k with
      | zero => exact hb.elim
      | succ k => exact ih (k := k) n hb (by show w.ind - 1 = _; omega)
  | tmpvar m ih =>
    intro k w n hb hk
    cases n with
    | zero => show j ≤ w.ind; omega
    | succ n => exact ih _ (k := k) n (hb _) hk
  | render m ih => intro k w n hb; exact hb.elim

/-- Stopping in the first part, or after it. -/
theorem stop_bind (f : α → Gen β) (m : Gen α) : ∀ (n : Nat) (w : W) {a : α} {w' : W}, m.run w = (.ok a, w') →
    (m.bind f).stop n w = if n ≤ m.acts w then m.stop n w else (f a).stop (n - m.acts w) w' := by
  induction m with
  | ret a =>
    intro n w a' w' h
    cases h
    cases n with
    | zero => cases f a <;> rfl
    | succ n => rw [if_neg (by simp [acts])]; rfl
  | fail e => intro n w a w' h; cases h
  | clear m ih =>
    intro n w a w' h
    cases n with
    | zero => rfl
    | succ n => simp only [Gen.bind, stop, acts, Nat.add_le_add_iff_right, Nat.add_sub_add_right]; exact ih n _ h
  | writeln s m ih =>
    intro n w a w' h
    cases n with
    | zero => rfl
    | succ n => simp only [Gen.bind, stop, acts, Nat.add_le_add_iff_right, Nat.add_sub_add_right]; exact ih n _ h
  | nest m ih =>
    intro n w a w' h
    cases n with
    | zero => rfl
    | succ n => simp only [Gen.bind, stop, acts, Nat.add_le_add_iff_right, Nat.add_sub_add_right]; exact ih n _ h
  | unnest m ih =>
    intro n w a w' h
    cases n with
    | zero => rfl
    | succ n => simp only [Gen.bind, stop, acts, Nat.add_le_add_iff_right, Nat.add_sub_add_right]; exact ih n _ h
  | tmpvar m ih =>
    intro n w a w' h
    cases n with
    | zero => rfl
    | succ n => simp only [Gen.bind, stop, acts, Nat.add_le_add_iff_right, Nat.add_sub_add_right]; exact ih _ n _ h
  | render m ih =>
    intro n w a w' h
    cases n with
    | zero => rfl
    | succ n => simp only [Gen.bind, stop, acts, Nat.add_le_add_iff_right, Nat.add_sub_add_right]; exact ih _ n _ h

theorem acts_bind (f : α → Gen β) (m : Gen α) : ∀ (w : W) {a : α} {w' : W}, m.run w = (.ok a, w') → (m.bind f).acts w = m.acts w + (f a).acts w' := by
  induction m with
  | ret a => intro w a' w' h; cases h; simp [acts, Gen.bind]
  | fail e => intro w a w' h; cases h
  | clear m ih => intro w a w' h; simp only [Gen.bind, acts]; rw [ih _ h]; omega
  | writeln s m ih => intro w a w' h; simp only [Gen.bind, acts]; rw [ih _ h]; omega
  | nest m ih => intro w a w' h; simp only [Gen.bind, acts]; rw [ih _ h]; omega
  | unnest m ih => intro w a w' h; simp only [Gen.bind, acts]; rw [ih _ h]; omega
  | tmpvar m ih => intro w a w' h; simp only [Gen.bind, acts]; rw [ih _ _ h]; omega
  | render m ih => intro w a w' h; simp only [Gen.bind, acts]; rw [ih _ _ h]; omega

/-- The first part of a program that returns returns. -/
theorem run_first {f : α → Gen β} {m : Gen α} {w w2 : W} {b : β} (h : (m.bind f).run w = (.ok b, w2)) : ∃ a w', m.run w = (.ok a, w') ∧ (f a).run w' = (.ok b, w2) := by
  rw [run_bind] at h
  generalize hm : m.run w = r at h
  obtain ⟨r, w'⟩ := r
  cases r with
  | error e => cases h
  | ok a => exact ⟨a, w', rfl, h⟩

theorem writes_head : ∀ (l : List Str) (w : W), (writes l).run w = (.ok (), w.writes l) ∧ (writes l).acts w = l.length ∧ (w.writes l).ind = w.ind ∧ ∀ n, ((writes l).stop n w).ind = w.ind
  | [], w => ⟨rfl, rfl, rfl, fun n => by cases n <;> rfl⟩
  | s :: l, w => by
    obtain ⟨h1, h2, h3, h4⟩ := writes_head l (w.writeln s)
    refine ⟨h1, by simp only [writes, acts]; rw [h2]; rfl, h3, fun n => ?_⟩
    cases n with
    | zero => rfl
    | succ n => exact h4 n

/-- Balanced programs end as deep as they started. -/
theorem run_ind {d j : Nat} (m : Gen α) : ∀ {k : Nat} {w w' : W} {a : α}, Bal k m d → w.ind = k + j → m.run w = (.ok a, w') → w'.ind = d + j := by
  induction m with
  | ret a => intro k w w' a' hb hw h; cases h; cases hb; exact hw
  | fail e => intro k w w' a' hb hw h; cases h
  | clear m ih => intro k w w' a' hb; exact hb.elim
  | writeln s m ih => intro k w w' a' hb hw h; exact ih hb (w := w.writeln s) hw h
  | nest m ih => intro k w w' a' hb hw h; exact ih (k := k + 1) hb (w := w.nest) (by show w.ind + 1 = _; omega) h
  | unnest m ih =>
    intro k w w' a' hb hw h
    cases k with
    | zero => exact hb.elim
    | succ k => exact ih (k := k) hb (w := w.unnest) (by show w.ind - 1 = _; omega) h
  | tmpvar m ih => intro k w w' a' hb hw h; exact ih _ (hb _) (w := w.tmpvar.2) hw h
  | render m ih => intro k w w' a' hb; exact hb.elim

/-- When generating a kernel is stopped after `n` actions, a block is left open exactly from the first `nest` to the last `unnest`. -/
theorem stop_open (L : Lang) (name : Str) (g : Graph V) (tbl : Tbl) (f : Func) (sch : Schedule) (args : Codegen.Args) {w w' : W} {text : Str}
    (h : (codegen L name g tbl f sch args).run w = (.ok text, w')) (n : Nat) :
    (if n ≤ (imports L).length + 2 ∨ (codegen L name g tbl f sch args).acts w ≤ n + 2 then ((codegen L name g tbl f sch args).stop n w).ind = w.ind
      else w.ind < ((codegen L name g tbl f sch args).stop n w).ind) ∧ w'.ind = w.ind := by
  generalize hs : kernStart L name ((Codegen.params g tbl args f.outDtype).map fun p => (p.1.chars, p.2)) = S
  have hc : codegen L name g tbl f sch args = .clear ((writes (imports L)).bind fun _ => .writeln S (.nest ((body L g tbl f sch args).bind fun _ => .unnest (.writeln (blockEnd L) join_)))) := by
    rw [← hs]; rfl
  rw [hc] at h ⊢
  change ((writes (imports L)).bind _).run { w with buf := [] } = _ at h
  obtain ⟨_, w1, h1, h2⟩ := run_first h
  obtain ⟨e1, e2, e3, e4⟩ := writes_head (imports L) { w with buf := [] }
  rw [e1] at h1
  cases h1
  change ((body L g tbl f sch args).bind _).run _ = _ at h2
  obtain ⟨_, w3, h3, h4⟩ := run_first h2
  have i3 := run_ind (j := w.ind) _ (bal_body L g tbl f sch args 1) (by show (W.writes _ _).ind + 1 = _; rw [e3]; simp [Nat.add_comm]) h3
  have i4 : w' = (w3.unnest.writeln (blockEnd L)) := by cases h4; rfl
  refine ⟨?_, by rw [i4]; show w3.ind - 1 = _; omega⟩
  generalize hB : (body L g tbl f sch args).acts ((W.writes { w with buf := [] } (imports L)).writeln S).nest = B
  have hT : (Gen.clear ((writes (imports L)).bind fun _ => .writeln S (.nest ((body L g tbl f sch args).bind fun _ => .unnest (.writeln (blockEnd L) join_))))).acts w =
      (imports L).length + B + 6 := by
    show ((writes (imports L)).bind _).acts _ + 1 = _
    rw [acts_bind _ _ _ e1, e2]
    show _ + (((body L g tbl f sch args).bind _).acts _ + 1 + 1) + 1 = _
    rw [acts_bind _ _ _ h3, hB]
    show _ + (B + 3 + 1 + 1) + 1 = _
    omega
  simp only [hT]
  cases n with
  | zero => rw [if_pos (by omega)]; rfl
  | succ n =>
  show if _ then ((Gen.bind _ _).stop n { w with buf := [] }).ind = _ else _ < ((Gen.bind _ _).stop n { w with buf := [] }).ind
  rw [stop_bind _ _ _ _ e1, e2]
  by_cases hn : n ≤ (imports L).length
  · rw [if_pos hn, if_pos (by omega)]; exact e4 n
  rw [if_neg hn]
  obtain ⟨m, hm⟩ : ∃ m, n - (imports L).length = m + 1 := ⟨n - (imports L).length - 1, by omega⟩
  rw [hm]
  cases m with
  | zero => rw [if_pos (by omega)]; exact e3
  | succ m =>
  simp only [stop]
  rw [stop_bind _ _ _ _ h3, hB]
  by_cases hB2 : m ≤ B
  · rw [if_pos hB2, if_neg (by omega)]
    have := stop_ind (j := w.ind + 1) (body L g tbl f sch args) m (bal_body L g tbl f sch args 0) (w := ((W.writes { w with buf := [] } (imports L)).writeln S).nest)
      (by show (W.writes _ _).ind + 1 = _; rw [e3])
    omega
  · rw [if_neg hB2, if_pos (by omega)]
    obtain ⟨q, hq⟩ : ∃ q, m - B = q + 1 := ⟨m - B - 1, by omega⟩
    rw [hq]
    have : ∀ x : W, x.ind = w.ind → (Gen.stop q (.writeln (blockEnd L) join_) x).ind = w.ind := by
      intro x hx
      rcases q with _ | _ | _ | _ <;> exact hx
    exact this _ (by show w3.ind - 1 = _; omega)

/-- Balanced programs only add lines. -/
theorem run_prefix {d : Nat} (m : Gen α) : ∀ {k : Nat} {w w' : W} {a : α}, Bal k m d → m.run w = (.ok a, w') → w.buf <+: w'.buf := by
  induction m with
  | ret a => intro k w w' a' hb h; cases h; exact List.prefix_rfl
  | fail e => intro k w w' a' hb h; cases h
  | clear m ih => intro k w w' a' hb; exact hb.elim
  | writeln s m ih => intro k w w' a' hb h; exact (List.prefix_append _ _).trans (ih hb (w := w.writeln s) h)
  | nest m ih => intro k w w' a' hb h; exact ih hb (w := w.nest) h
  | unnest m ih =>
    intro k w w' a' hb h
    cases k with
    | zero => exact hb.elim
    | succ k => exact ih hb (w := w.unnest) h
  | tmpvar m ih => intro k w w' a' hb h; exact ih _ (hb _) (w := w.tmpvar.2) h
  | render m ih => intro k w w' a' hb; exact hb.elim

/-- What an object with indentation `i` writes: the lines of a fresh one, moved to the right. -/
theorem codegen_at (L : Lang) (name : Str) (g : Graph V) (tbl : Tbl) (f : Func) (sch : Schedule) (args : Codegen.Args) (b : List Str) (i n : Nat) :
    match Text.codegen L name g tbl f sch args n with
    | .ok (text, n') => ∃ ls, text = join ['\n'] ls ∧ (imports L) <+: ls ∧ (codegen L name g tbl f sch args).run ⟨b, i, n⟩ = (.ok (join ['\n'] (ls.map (shift i))), ⟨ls.map (shift i), i, n'⟩)
    | .error e => ((codegen L name g tbl f sch args).run ⟨b, i, n⟩).1 = .error e := by
  have h0 := agree_codegen L name g tbl f sch args b n
  rw [codegen_lines] at h0 ⊢
  change match Text.codegen L name g tbl f sch args n with
    | .ok (text, n') => ∃ w', ((lines L name g tbl f sch args).bind fun _ => join_).run ⟨[], 0, n⟩ = (.ok text, w') ∧ w'.tmp = n'
    | .error e => (((lines L name g tbl f sch args).bind fun _ => join_).run ⟨[], 0, n⟩).1 = .error e at h0
  change match Text.codegen L name g tbl f sch args n with
    | .ok (text, n') => ∃ ls, text = join ['\n'] ls ∧ (imports L) <+: ls ∧ ((lines L name g tbl f sch args).bind fun _ => join_).run ⟨[], i, n⟩ = (.ok (join ['\n'] (ls.map (shift i))), ⟨ls.map (shift i), i, n'⟩)
    | .error e => (((lines L name g tbl f sch args).bind fun _ => join_).run ⟨[], i, n⟩).1 = .error e
  obtain ⟨s1, s2, s3⟩ := run_shift (lines L name g tbl f sch args) (j := i) (w := ⟨[], 0, n⟩) (w' := ⟨[], i, n⟩) (bal_lines L name g tbl f sch args 0) rfl ⟨rfl, (Nat.zero_add i).symm, rfl⟩
  rw [run_bind] at h0 ⊢
  generalize hl : (lines L name g tbl f sch args).run ⟨[], 0, n⟩ = r at *
  generalize hl' : (lines L name g tbl f sch args).run ⟨[], i, n⟩ = r' at *
  obtain ⟨x, w⟩ := r
  obtain ⟨x', w'⟩ := r'
  cases s1
  cases hc : Text.codegen L name g tbl f sch args n with
  | error e =>
    rw [hc] at h0
    cases x with
    | error e' => exact h0
    | ok u => cases h0
  | ok p =>
    obtain ⟨text, n'⟩ := p
    rw [hc] at h0
    obtain ⟨w2, h0, h1⟩ := h0
    cases x with
    | error e' => cases h0
    | ok u =>
      cases h0
      have hi := s3 u rfl
      obtain ⟨wb, wi, wt⟩ := w
      obtain ⟨wb', wi', wt'⟩ := w'
      obtain ⟨e1, e2, e3⟩ := s2
      simp only at e1 e2 e3 h1 hi
      subst e1 e2 e3 h1 hi
      refine ⟨wb, rfl, ?_, by rw [Nat.zero_add]; rfl⟩
      obtain ⟨_, wh, r1, r2⟩ := run_first hl
      rw [(writes_head _ _).1] at r1
      cases r1
      have hp : (W.writes ⟨[], 0, n⟩ (imports L)).buf <+: wb := by
        refine run_prefix (d := 0) _ (k := 0) ?_ r2
        refine Bal.write <| Bal.nest <| (bal_body L g tbl f sch args 1).bind fun _ => Bal.unnest ?_
        exact rfl
      rw [show (W.writes ⟨[], 0, n⟩ (imports L)).buf = imports L by cases L <;> rfl] at hp
      exact hp

end Gen
end Whale
