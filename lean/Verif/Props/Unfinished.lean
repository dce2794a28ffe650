import Verif.Proofs.UnfinishedC
import Verif.Props.Source
/-
C72: the code generator object when generating a kernel is interrupted.
-/
namespace Whale.Props
open Whale Mat Hist Algo
variable {V : Type}

/-! ### the object -/

/-- C72: with a generator in which no block is open, a call does what C64 describes, and leaves it so. -/
theorem C72_fresh (R : Runtime V) (s : SWorld V) (c : Call V) : Unf.step R ⟨s, 0⟩ c = (Src.step R s c).map fun p => (p.1, ⟨p.2, 0⟩) := step_fresh R s c

/-- C72: when generating a kernel (whose source would be `text`) is stopped after `n` of its actions, a block stays open exactly if that is after the first `nest` and before the last `unnest`. If it is
not stopped, the indentation is what it was. -/
theorem C72_when (L : Lang) (name : Str) (g : Graph V) (tbl : Tbl) (f : Func) (sch : Schedule) (args : Codegen.Args) {w w' : Text.W} {text : Str}
    (h : (Gen.codegen L name g tbl f sch args).run w = (.ok text, w')) (n : Nat) :
    (w.ind < ((Gen.codegen L name g tbl f sch args).stop n w).ind ↔ (LangSpec.imports L).length + 2 < n ∧ n + 2 < (Gen.codegen L name g tbl f sch args).acts w) ∧
    (w.ind = ((Gen.codegen L name g tbl f sch args).stop n w).ind ∨ w.ind < ((Gen.codegen L name g tbl f sch args).stop n w).ind) ∧ w'.ind = w.ind := by
  have := Gen.stop_open L name g tbl f sch args h n
  split at this
  · rename_i hc
    rw [this.1]
    refine ⟨⟨fun h => absurd h (by omega), fun h => by omega⟩, .inl rfl, this.2⟩
  · rename_i hc
    refine ⟨⟨fun _ => by omega, fun _ => this.1⟩, .inr this.1, this.2⟩

/-! ### C and CUDA -/

/-- C72 (Clang and CUDA): whatever generation was interrupted, no call can tell that the generator was not put in order: it raises the same exception, or returns the same and leaves the same arrays,
memory and compiled kernels (their sources are the same but for white space). -/
theorem C72_c {P : World V → Call V → Prop} {R : Runtime V} (hL : R.L ≠ .python) {x : GWorld V} (h : URuns P R false Unf.init x) :
    ∃ y, URuns P R true Unf.init y ∧ y.ind = 0 ∧ Alike R.L x.s y.s ∧ ∀ c, SameStep R.L (Unf.step R x c) (Unf.step R y c) := by
  obtain ⟨y, h1, h2⟩ := uruns_alike (c' := true) hL h (.refl R.L _)
  exact ⟨y, h1, (uruns_ind h1).2 rfl, h2, step_alike hL h2⟩

/-! ### Python -/

/-- C72 (Python backend): once a block was left open, a call that needs no new kernel does what it should, with its result and its exception; a call that needs one raises `SyntaxError` (unless it
raises another exception before). -/
theorem C72_python_partial {R : Runtime V} (hL : R.L = .python) {x : GWorld V} (hi : 0 < x.ind) (c : Call V) :
    (∀ e, Src.step R x.s c = .error e → Unf.step R x c = .error e ∨ Unf.step R x c = .error .syntaxError) ∧
    ∀ o s', Src.step R x.s c = .ok (o, s') → (s'.texts = x.s.texts ∨ c = .reset → Unf.step R x c = .ok (o, ⟨s', x.ind⟩)) ∧
      (s'.texts ≠ x.s.texts → c ≠ .reset → Unf.step R x c = .error .syntaxError) := step_crippled hL hi x.s c

/-- C72 (Python backend): and so it stays: whatever is called, no kernel is compiled any more. -/
theorem C72_forever {P : World V → Call V → Prop} {R : Runtime V} (hL : R.L = .python) {x x' : GWorld V} (hi : 0 < x.ind) (h : URuns P R false x x') :
    0 < x'.ind ∧ ∀ q ∈ x'.s.texts, q ∈ x.s.texts := ⟨Nat.lt_of_lt_of_le hi (uruns_ind h).1, uruns_old hL h hi⟩

/-! ### all backends -/

theorem unf_other (R : Runtime V) (x : GWorld V) {c : Call V} (hc : ∀ a, c ≠ .materialize a) : Unf.step R x c = (Src.step R x.s c).map fun p => (p.1, { x with s := p.2 }) := by
  unfold Unf.step Src.step
  split
  · cases c <;> first | rfl | exact absurd rfl (hc _)
  · rfl

/-- A session of source texts with interrupted code generation reads arrays as `Mat` does. -/
theorem unf_tolist {R : Runtime V} (hR : R.OK) (hb : Faithful R.b) (hI : Sem.IntLaws R.L R.N) {x : GWorld V} {w : World V} (hw : SimU R x.s w) {a : Nat} :
    (∀ o x', Unf.step R x (.tolist a) = .ok (o, x') → ∃ w', step R.b w (.tolist a) = .ok (o, w')) ∧ ∀ o w', step R.b w (.tolist a) = .ok (o, w') → ∃ x', Unf.step R x (.tolist a) = .ok (o, x') := by
  rw [unf_other R x (c := .tolist a) (fun _ h => by cases h)]
  rcases src_step hR hb hI hw.inv hw.shadow hw.ok (c := .tolist a) ⟨trivial, fun _ h => by cases h⟩ with ⟨e, e1, e2⟩ | ⟨o', w', e1, -, -, h3⟩
  · rw [e1, e2]; exact ⟨(fun _ _ h => by cases h), (fun _ _ h => by cases h)⟩
  · rcases h3 with ⟨s', e2, -⟩ | ⟨-, a', h, -⟩
    · rw [e1, e2]
      exact ⟨(fun o x' h => by cases h; exact ⟨_, rfl⟩), (fun o w' h => by cases h; exact ⟨_, rfl⟩)⟩
    · cases h

/-- C72: after any session with interrupted code generation, `tolist` returns the array's value if it returns. -/
theorem C72_safe {R : Runtime V} (hR : R.OK) (hI : Sem.IntLaws R.L R.N) {x x' : GWorld V} (h : URuns (Src.ArgsOK R) R false Unf.init x) {a : Nat} (hno : NoOffsetReshape x.s.w.g a) {o : Out V}
    (hs : Unf.step R x (.tolist a) = .ok (o, x')) : o = .list (value R.b x.s.w a).toNested := by
  obtain ⟨run, hb⟩ := faithful_run R
  have hx := withRun_uruns (run := run) h
  obtain ⟨w, hw, -⟩ := uruns_sim hR.withRun hb hI hx (SimU.init _)
  have hg : x.s.w.g = w.g := by rw [hw.ok.same]
  rw [← withRun_unf_step (run := run)] at hs
  obtain ⟨w', e⟩ := (unf_tolist hR.withRun hb hI hw).1 o x' hs
  have ha : a < w.g.length := by
    unfold step at e
    split at e
    · rename_i hin; exact hin a (by simp [Call.arrays])
    · cases e
  rw [step_eq (by simpa [Call.arrays] using ha)] at e
  simp only [exec1] at e
  cases ht : tolist (R.withRun run).b w a with
  | error e' => rw [ht] at e; cases e
  | ok p =>
    rw [ht] at e
    cases e
    have hbl : base w.g a < w.g.length := Nat.lt_of_le_of_lt (base_le hw.inv.winv.wf ha) ha
    obtain ⟨l, cpu, ev, e', -, -, hl⟩ := tolist_ok hw.inv.winv ha (tolist_avail ht)
    rw [ht] at e'
    cases e'
    rw [hg] at hno
    unfold value
    rw [hg]
    exact congrArg _ (hl hno)

/-- C72: after any session with interrupted code generation, `materialize` either stops at a number operation without a result, or raises `SyntaxError` (on the Python backend, where a block was left
open), or returns; and then, whatever is called and interrupted afterwards, `tolist` returns the array's value. -/
theorem C72_computes_partial {R : Runtime V} (hR : R.OK) (hI : Sem.IntLaws R.L R.N) {x : GWorld V} (h : URuns (Src.ArgsOK R) R false Unf.init x) {a : Nat} (ha : a < x.s.w.g.length)
    (hargs : Src.ArgsOK R x.s.w (.materialize a)) (hno : NoOffsetReshape x.s.w.g a) :
    (Unf.step R x (.materialize a) = .error (.fault .arith) ∧ ¬ AllTotal R x.s.w.g (base x.s.w.g a)) ∨
    (R.L = .python ∧ 0 < x.ind ∧ Unf.step R x (.materialize a) = .error .syntaxError) ∨
    ∃ x2, Unf.step R x (.materialize a) = .ok (.unit, x2) ∧ ∀ x3, URuns (Src.ArgsOK R) R false x2 x3 → ∃ x4, Unf.step R x3 (.tolist a) = .ok (.list (value R.b x.s.w a).toNested, x4) := by
  obtain ⟨run, hb⟩ := faithful_run R
  have hx := withRun_uruns (run := run) h
  obtain ⟨w, hw, -⟩ := uruns_sim hR.withRun hb hI hx (SimU.init _)
  have hg : x.s.w.g = w.g := by rw [hw.ok.same]
  have hlog : x.s.w.log = w.log := by rw [hw.ok.same]
  have haw : a < w.g.length := by rw [← hg]; exact ha
  have h1 := hargs.1
  simp only [ArgsOK, hg, hlog] at h1
  have hwi := hw.inv.winv
  obtain ⟨w', e, r⟩ := materialize_ok hb hwi haw h1.1 h1.2.1 (fun hgpu => kernelSizes_of hwi.wf haw h1.1 (h1.2.2 hgpu))
  have es : step (R.withRun run).b w (.materialize a) = .ok (.unit, w') := by
    rw [step_eq (by simpa [Call.arrays] using haw)]
    simp only [exec1, e]; rfl
  rcases ustep_sim (c := .materialize a) hR.withRun hb hI hw hargs es with ⟨x2, e2, hs2⟩ | ⟨e2, a', he, hnt⟩ | ⟨hL, hi, e2, _⟩
  · rw [withRun_unf_step] at e2
    refine .inr (.inr ⟨x2, e2, fun x3 h3 => ?_⟩)
    obtain ⟨w3, hw3, hl⟩ := uruns_sim hR.withRun hb hI (withRun_uruns (run := run) h3) hs2
    have hw'g : w'.g = w.g := r.g
    have hext : Ext w.g w3.g := by rw [← hw'g]; exact hl.ext
    have ha3 : a < w3.g.length := Nat.lt_of_lt_of_le haw hext.length
    have hbase : base w3.g a = base w.g a := base_ext hext hwi.wf haw
    have hbl : base w.g a < w.g.length := Nat.lt_of_le_of_lt (base_le hwi.wf haw) haw
    have hav : Avail (R.withRun run).b w3 (base w3.g a) := by
      rw [hbase]
      exact hl.avail (by rw [hw'g]; exact hbl) r.avail
    obtain ⟨l, cpu, ev, e', -, -, hl'⟩ := tolist_ok hw3.inv.winv ha3 hav
    have es3 : step (R.withRun run).b w3 (.tolist a) = .ok (.list l, { w3 with cpu := cpu, ev := ev }) := by
      rw [step_eq (by simpa [Call.arrays] using ha3)]
      simp only [exec1, e']; rfl
    obtain ⟨x4, e4⟩ := (unf_tolist hR.withRun hb hI hw3).2 _ _ es3
    rw [withRun_unf_step] at e4
    rw [hg] at hno
    refine ⟨x4, ?_⟩
    rw [e4, hl' (hno.ext hext hwi.wf haw), den_ext (R.withRun run).b.A hext hw3.inv.winv.wf haw]
    unfold value
    rw [hg]
    rfl
  · cases he
    rw [withRun_unf_step] at e2
    exact .inl ⟨e2, hnt⟩
  · rw [withRun_unf_step] at e2
    exact .inr (.inl ⟨hL, hi, e2⟩)

/-! ### the cases -/

/-- What `a.materialize()` leaves behind if the kernels before the `j`-th have run and generating the `j`-th is stopped after `n` actions. -/
def stopAt (R : Runtime V) (clean : Bool) (x : GWorld V) (a j n : Nat) : Option (GWorld V) :=
  if (x.s.w.g.ctx a).op.isConst then none else if (x.s.w.g.ctx a).op.isView then none else
  match Algo.convert x.s.w.g a with
  | .error _ => none
  | .ok (funcs, t) => match schedAll R.b.isGpu t funcs with
    | .error _ => none
    | .ok scheds => match (funcs.zip scheds)[j]? with
      | none => none
      | some p => match ((funcs.zip scheds).take j).foldlM (Unf.runFunc R t (a + 2))
          { x with s := { x.s with w := { x.s.w with log := x.s.w.log ++ (funcs.zip scheds).filterMap (plan1 x.s.w.g t (a + 2)) } } } with
        | .error _ => none
        | .ok x1 => match t p.1 with
          | none => none
          | some F => match outBufs t (Algo.args F.expr).2 with
            | .error _ => none
            | .ok _ => match cacheKey x1.s.w.g t (a + 2) F p.2 with
              | .error _ => none
              | .ok key => match x1.s.texts.lookup key with
                | some _ => none
                | none =>
                  let o := (Gen.codegen R.L (Text.kernName (R.digest key)) x1.s.w.g t F p.2 ⟨(Algo.args F.expr).1, (Algo.args F.expr).2⟩).stop n ⟨[], x1.ind, x1.s.w.tmp⟩
                  some { s := { x1.s with w := { x1.s.w with tmp := o.tmp } }, ind := if clean then x1.ind else o.ind }

theorem stopAt_stopped {R : Runtime V} {clean : Bool} {x x' : GWorld V} {a j n : Nat} (h : stopAt R clean x a j n = some x') : Unf.Stopped R clean x a x' := by
  unfold stopAt at h
  split at h
  · cases h
  rename_i h1
  split at h
  · cases h
  rename_i h2
  split at h
  · cases h
  rename_i funcs t h3
  split at h
  · cases h
  rename_i scheds h4
  split at h
  · cases h
  rename_i p h5
  split at h
  · cases h
  rename_i x1 h6
  split at h
  · cases h
  rename_i F h7
  split at h
  · cases h
  rename_i outs h8
  split at h
  · cases h
  rename_i key h9
  split at h
  · cases h
  rename_i h10
  cases h
  obtain ⟨hj, rfl⟩ := List.getElem?_eq_some_iff.1 h5
  exact .kernel (post := (funcs.zip scheds).drop (j + 1)) n (by simpa using h1) (by simpa using h2) h3 h4 (by rw [List.getElem_cons_drop, List.take_append_drop]) h6 h7 h8 h9 h10 rfl

/-- Running calls one after the other; `.inr (a, j, n)`: `a.materialize()`, stopped as `stopAt`. -/
def unfRun (R : Runtime V) (chk : SWorld V → Bool) (clean : Bool) : GWorld V → List (Call V ⊕ Nat × Nat × Nat) → Option (GWorld V)
  | x, [] => some x
  | x, .inl c :: cs => match Unf.step R x c with
    | .ok (_, x') => if (∀ a ∈ c.arrays, a < x.s.w.g.length) ∧ argsOKb R.b x.s.w c && chk x.s then unfRun R chk clean x' cs else none
    | .error _ => none
  | x, .inr (a, j, n) :: cs => match stopAt R clean x a j n with
    | some x' => if a < x.s.w.g.length ∧ argsOKb R.b x.s.w (.materialize a) && chk x.s then unfRun R chk clean x' cs else none
    | none => none

theorem unfRun_uruns {R : Runtime V} (hR : R.OK) (hb : Faithful R.b) (hI : Sem.IntLaws R.L R.N) {chk : SWorld V → Bool}
    (hchk : ∀ s w a, Reachable R.b w → s.w.g = w.g → chk s = true → Computed w.g a → NoScalarReshape w.g a → Suits R w.g a) {x0 : GWorld V} {w0 : World V} (h0 : SimU R x0.s w0)
    {cs : List (Call V ⊕ Nat × Nat × Nat)} : ∀ {x x' : GWorld V}, URuns (Src.ArgsOK R) R false x0 x → unfRun R chk false x cs = some x' → URuns (Src.ArgsOK R) R false x0 x' := by
  have key : ∀ {x : GWorld V}, URuns (Src.ArgsOK R) R false x0 x → ∀ {c : Call V}, (∀ a ∈ c.arrays, a < x.s.w.g.length) → argsOKb R.b x.s.w c = true → chk x.s = true → Src.ArgsOK R x.s.w c := by
    intro x hx c hin ha hc
    obtain ⟨w, hw, -⟩ := uruns_sim hR hb hI hx h0
    have hg : x.s.w.g = w.g := by rw [hw.ok.same]
    have ha := argsOKb_sound hin (by rw [hg]; exact hw.inv.winv.wf) ha
    refine ⟨ha, fun a he hcomp => ?_⟩
    subst he
    obtain ⟨v, hv, hvg, -⟩ := hw.shadow
    have hns := ha.1
    rw [hg, ← hvg] at hcomp hns ⊢
    exact hchk x.s v _ hv (hg.trans hvg.symm) hc hcomp hns
  induction cs with
  | nil => intro x x' h hr; cases hr; exact h
  | cons c cs ih =>
    intro x x' h hr
    cases c with
    | inl c =>
      unfold unfRun at hr
      split at hr
      · rename_i o x1 hs
        split at hr
        · rename_i hc
          simp only [Bool.and_eq_true, decide_eq_true_eq] at hc
          exact ih (.call h (key h hc.1 hc.2.1 hc.2.2) hs) hr
        · cases hr
      · cases hr
    | inr q =>
      obtain ⟨a, j, n⟩ := q
      unfold unfRun at hr
      split at hr
      · rename_i x1 hs
        split at hr
        · rename_i hc
          simp only [Bool.and_eq_true, decide_eq_true_eq] at hc
          exact ih (.stopped h hc.1 (key h (by simpa [Call.arrays] using hc.1) hc.2.1 hc.2.2) (stopAt_stopped hs)) hr
        · cases hr
      · cases hr

/-- The list `tolist` returns after a program with interruptions: shape and elements. -/
def unfList (R : Runtime V) (chk : SWorld V → Bool) (cs : List (Call V ⊕ Nat × Nat × Nat)) (a : Nat) : Option (List Int × List V) := do
  let x ← unfRun R chk false Unf.init cs
  match Unf.step R x (.tolist a) with
  | .ok (.list l, _) => some (shapeOf l, leaves l)
  | _ => none

/-- How the last call of a program with interruptions ends, and what it would do with a fresh generator. -/
def unfLast (R : Runtime V) (chk : SWorld V → Bool) (cs : List (Call V ⊕ Nat × Nat × Nat)) (c : Call V) : Option (Nat × Option SErr × Option SErr) := do
  let x ← unfRun R chk false Unf.init cs
  some (x.ind, (match Unf.step R x c with
  | .ok _ => none
  | .error e => some e), (match Src.step R x.s c with
  | .ok _ => none
  | .error e => some e))

theorem unfRun_py {cs : List (Call (Sem.Py Rat) ⊕ Nat × Nat × Nat)} {x : GWorld (Sem.Py Rat)} (h : unfRun pyRun (fun _ => true) false Unf.init cs = some x) :
    URuns (Src.ArgsOK pyRun) pyRun false Unf.init x :=
  unfRun_uruns pyRun_ok (pythonBackend_faithful _) (Sem.py_int _) (fun _ _ _ _ _ _ _ _ => pyRun_suits _ _) (SimU.init _) .refl h

theorem unfRun_c {isGpu : Bool} {cs : List (Call (Sem.CVal Rat Rat) ⊕ Nat × Nat × Nat)} {x : GWorld (Sem.CVal Rat Rat)} (h : unfRun (cRun isGpu) int64s false Unf.init cs = some x) :
    URuns (Src.ArgsOK (cRun isGpu)) (cRun isGpu) false Unf.init x :=
  unfRun_uruns (cRun_ok isGpu) (demoBackend_faithful _ _ _ _) (Sem.c_int (by cases isGpu <;> decide) _ _) (fun _ _ _ hr hg hc ha hns => cRun_suits isGpu hr hg hc ha hns) (SimU.init _) .refl h

/-- The program of C64's example; then `materialize` of the padded quotients is stopped after `n` actions in generating its second kernel. -/
def fracStop (n : Nat) : List (Call (Sem.Py Rat) ⊕ Nat × Nat × Nat) := fracProg.map .inl ++ [.inr (4, 1, n)]

/-- C72 fails in full: an exception in generating a kernel can change what calls do afterwards. -/
theorem C72_counterexample : ¬ ∀ (R : Runtime (Sem.Py Rat)), R.OK → Faithful R.b → Sem.IntLaws R.L R.N → ∀ x, URuns (Src.ArgsOK R) R false Unf.init x → ∀ c, Src.ArgsOK R x.s.w c →
    ∀ o s', Src.step R x.s c = .ok (o, s') → ∃ x', Unf.step R x c = .ok (o, x') := by
  intro h
  have h1 : (unfLast pyRun (fun _ => true) (fracStop 10) (.materialize 4)) = some (3, some .syntaxError, none) := by decide +kernel
  have h2 : (unfRun pyRun (fun _ => true) false Unf.init (fracStop 10 ++ [.inl (.materialize 4)])).isNone := by decide +kernel
  have h3 : (unfRun pyRun (fun _ => true) false Unf.init (fracStop 10)).any fun x => decide (4 < x.s.w.g.length) && argsOKb pyRun.b x.s.w (.materialize 4) := by decide +kernel
  unfold unfLast at h1
  cases hx : unfRun pyRun (fun _ => true) false Unf.init (fracStop 10) with
  | none => rw [hx] at h1; cases h1
  | some x =>
    rw [hx] at h1 h3
    simp only [Option.any_some, Bool.and_eq_true, decide_eq_true_eq] at h3
    have hr := unfRun_py hx
    obtain ⟨w, hw, -⟩ := uruns_sim pyRun_ok (pythonBackend_faithful _) (Sem.py_int _) hr (SimU.init _)
    have hg : x.s.w.g = w.g := by rw [hw.ok.same]
    have hargs : Src.ArgsOK pyRun x.s.w (.materialize 4) :=
      ⟨argsOKb_sound (by simpa [Call.arrays] using h3.1) (by rw [hg]; exact hw.inv.winv.wf) h3.2, fun _ _ _ => pyRun_suits _ _⟩
    simp only [bind, Option.bind, Option.some.injEq, Prod.mk.injEq] at h1
    cases hs : Src.step pyRun x.s (.materialize 4) with
    | error e => rw [hs] at h1; cases h1.2.2
    | ok p =>
      obtain ⟨x', e⟩ := h pyRun pyRun_ok (pythonBackend_faithful _) (Sem.py_int _) x hr _ hargs p.1 p.2 hs
      rw [e] at h1
      cases h1.2.1

/-! ### examples -/

/-- The kernel that is stopped in the examples. -/
def genDemo (L : Lang) (i : Nat) : Option (Gen Str) := do
  let (funcs, t) ← (Algo.convert fracWorld.g 4).toOption
  let scheds ← (schedAll false t funcs).toOption
  let p ← (funcs.zip scheds)[i]?
  let F ← t p.1
  some (Gen.codegen L "kern_0a".toList fracWorld.g t F p.2 ⟨(Algo.args F.expr).1, (Algo.args F.expr).2⟩)

/-- `C72_when`: generation returns a source, in 39 actions (one import line); the indentation if it is stopped after each. -/
example : (genDemo .python 1).map (fun k => ((match (k.run ⟨[], 0, 0⟩).1 with | .ok s => s.length | .error _ => 0), k.acts ⟨[], 0, 0⟩, (List.range 40).map fun n => (k.stop n ⟨[], 0, 0⟩).ind)) =
    some (503, 39, [0, 0, 0, 0, 1, 1, 2, 2, 3, 3, 3, 3, 3, 3, 3, 3, 3, 3, 4, 4, 4, 4, 4, 4, 4, 4, 3, 3, 4, 4, 3, 3, 3, 2, 2, 1, 1, 0, 0, 0]) ∧ (LangSpec.imports .python).length = 1 := by
  decide +kernel

/-- `C72_fresh`, `C72_python_partial`, `C72_forever`, `C72_safe`, `C72_computes_partial` on the Python backend: stopped after ten actions, three blocks stay open: `materialize` of the quotients raises
`SyntaxError`, which with a fresh generator it would not; the sums, whose kernel was compiled before, can be materialized and read; a new kernel of another array cannot be compiled either.  Stopped before
the first `nest` or after the last `unnest`, nothing happens. -/
example : (∀ n x, unfRun pyRun (fun _ => true) false Unf.init (fracStop n) = some x → URuns (Src.ArgsOK pyRun) pyRun false Unf.init x) ∧
    unfLast pyRun (fun _ => true) (fracStop 10) (.materialize 4) = some (3, some .syntaxError, none) ∧
    unfLast pyRun (fun _ => true) (fracStop 10) (.materialize 1) = some (3, none, none) ∧
    unfLast pyRun (fun _ => true) (fracStop 10 ++ [.inl (.materialize 1), .inl (.bin .mul 0 0)]) (.materialize 5) = some (3, some .syntaxError, none) ∧
    unfList pyRun (fun _ => true) (fracStop 10 ++ [.inl (.materialize 1)]) 1 = some ([2, 1], [.flt (7 / 2), .flt 2]) ∧
    (∀ n ∈ [0, 3, 37, 50], unfList pyRun (fun _ => true) (fracStop n ++ [.inl (.materialize 4)]) 4 =
      some ([3, 2], [.int 0, .int 0, .flt (2 / 7), .flt (5 / 7), .flt (3 / 2), .flt (-1 / 2)])) := by
  refine ⟨fun n x h => unfRun_py h, by decide +kernel, by decide +kernel, by decide +kernel, by decide +kernel, by decide +kernel⟩

/-- `array([3, 5])` times itself. -/
def squares : List (Call (Sem.CVal Rat Rat)) := [.array (.node [.leaf (.i64 3), .leaf (.i64 5)]), .bin .mul 0 0]

/-- `C72_c` and the others in C and CUDA: stopped with blocks open, the arrays are computed all the same. -/
example : (∀ g cs x, unfRun (cRun g) int64s false Unf.init cs = some x → URuns (Src.ArgsOK (cRun g)) (cRun g) false Unf.init x) ∧
    (cRun false).L ≠ .python ∧ (cRun true).L ≠ .python ∧
    unfLast (cRun false) int64s (intsProg.map .inl ++ [.inr (2, 0, 9)]) (.materialize 2) = some (2, none, none) ∧
    unfList (cRun false) int64s (intsProg.map .inl ++ [.inr (2, 0, 9), .inl (.materialize 2)]) 2 = some ([3, 2], [.i64 1, .i64 16, .i64 4, .i64 25, .i64 9, .i64 36]) ∧
    unfLast (cRun true) int64s (squares.map .inl ++ [.inr (1, 0, 6)]) (.materialize 1) = some (1, none, none) ∧
    unfList (cRun true) int64s (squares.map .inl ++ [.inr (1, 0, 6), .inl (.materialize 1)]) 1 = some ([2], [.i64 9, .i64 25]) := by
  refine ⟨fun g cs x h => unfRun_c h, by decide, by decide, by decide +kernel, by decide +kernel, by decide +kernel, by decide +kernel⟩

end Whale.Props
