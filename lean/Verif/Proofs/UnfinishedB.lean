import Verif.Proofs.Unfinished
/-
Proofs for C72: code generation that is stopped, and the Python backend afterwards.
-/
namespace Whale
open Mat Hist LangSpec Text Syntax
variable {V : Type}

/-- The counter of temporaries does not depend on the lines written nor on their indentation. -/
theorem Gen.stop_tmp {α : Type} (m : Gen α) : ∀ {k d : Nat} {w w' : W} (n : Nat), Gen.Bal k m d → w.tmp = w'.tmp →
    ((m.bind fun _ => Gen.join_).stop n w).tmp = ((m.bind fun _ => Gen.join_).stop n w').tmp := by
  induction m with
  | ret a =>
    intro k d w w' n _ h
    rcases n with _ | _ | n
    · exact h
    · exact h
    · exact h
  | fail e => intro k d w w' n _ h; cases n <;> exact h
  | clear m ih => intro k d w w' n hb; exact hb.elim
  | writeln s m ih =>
    intro k d w w' n hb h
    cases n with
    | zero => exact h
    | succ n => exact ih (w := w.writeln s) (w' := w'.writeln s) n hb h
  | nest m ih =>
    intro k d w w' n hb h
    cases n with
    | zero => exact h
    | succ n => exact ih (w := w.nest) (w' := w'.nest) n hb h
  | unnest m ih =>
    intro k d w w' n hb h
    cases n with
    | zero => exact h
    | succ n =>
      cases k with
      | zero => exact hb.elim
      | succ k => exact ih (w := w.unnest) (w' := w'.unnest) n hb h
  | tmpvar m ih =>
    intro k d w w' n hb h
    cases n with
    | zero => exact h
    | succ n =>
      have e : w.tmpvar.1 = w'.tmpvar.1 := by unfold W.tmpvar; rw [h]
      show ((m w.tmpvar.1).bind _ |>.stop n w.tmpvar.2).tmp = ((m w'.tmpvar.1).bind _ |>.stop n w'.tmpvar.2).tmp
      rw [← e]
      exact ih w.tmpvar.1 (w := w.tmpvar.2) (w' := w'.tmpvar.2) n (hb _) (by unfold W.tmpvar; show w.tmp + 1 = w'.tmp + 1; rw [h])
  | render m ih => intro k d w w' n hb; exact hb.elim

theorem codegen_stop_tmp (L : Lang) (name : Str) (g : Graph V) (tbl : Tbl) (f : Func) (sch : Schedule) (args : Codegen.Args) {w w' : W} (n : Nat) (h : w.tmp = w'.tmp) :
    ((Gen.codegen L name g tbl f sch args).stop n w).tmp = ((Gen.codegen L name g tbl f sch args).stop n w').tmp := by
  rw [Gen.codegen_lines]
  cases n with
  | zero => exact h
  | succ n => exact Gen.stop_tmp _ (w := { w with buf := [] }) (w' := { w' with buf := [] }) n (Gen.bal_lines L name g tbl f sch args 0) h

theorem codegen_stop_ind (L : Lang) (name : Str) (g : Graph V) (tbl : Tbl) (f : Func) (sch : Schedule) (args : Codegen.Args) {w : W} (n : Nat) :
    w.ind ≤ ((Gen.codegen L name g tbl f sch args).stop n w).ind := by
  rw [Gen.codegen_lines]
  cases n with
  | zero => exact Nat.le_refl _
  | succ n =>
    show w.ind ≤ (((Gen.lines L name g tbl f sch args).bind fun _ => Gen.join_).stop n { w with buf := [] }).ind
    have : ∀ (m : Gen Unit) (k d : Nat) (w' : W) (n : Nat), Gen.Bal k m d → w'.ind = w.ind + k → w.ind ≤ ((m.bind fun _ => Gen.join_).stop n w').ind := by
      intro m
      induction m with
      | ret a =>
        intro k d w' n _ h
        have : w.ind ≤ w'.ind := by omega
        rcases n with _ | _ | n <;> exact this
      | fail e => intro k d w' n _ h; cases n <;> (show w.ind ≤ w'.ind; omega)
      | clear m ih => intro k d w' n hb; exact hb.elim
      | writeln s m ih =>
        intro k d w' n hb h
        cases n with
        | zero => show w.ind ≤ w'.ind; omega
        | succ n => exact ih k d (w'.writeln s) n hb h
      | nest m ih =>
        intro k d w' n hb h
        cases n with
        | zero => show w.ind ≤ w'.ind; omega
        | succ n => exact ih (k + 1) d w'.nest n hb (by show w'.ind + 1 = _; omega)
      | unnest m ih =>
        intro k d w' n hb h
        cases n with
        | zero => show w.ind ≤ w'.ind; omega
        | succ n =>
          cases k with
          | zero => exact hb.elim
          | succ k => exact ih k d w'.unnest n hb (by show w'.ind - 1 = _; omega)
      | tmpvar m ih =>
        intro k d w' n hb h
        cases n with
        | zero => show w.ind ≤ w'.ind; omega
        | succ n => exact ih w'.tmpvar.1 k d w'.tmpvar.2 n (hb _) h
      | render m ih => intro k d w' n hb; exact hb.elim
    exact this _ 0 0 _ n (Gen.bal_lines L name g tbl f sch args 0) rfl

theorem RelU.comp {α β γ : Type} {P : α → γ → Prop} {Q : β → γ → Prop} {u : Except SErr α} {v : Except SErr β} {z : Except SErr γ} (h : RelU P u z) (h' : RelU Q v z) :
    RelU (fun a b => ∃ c, P a c ∧ Q b c) u v := by
  cases h with
  | err e => cases h'; exact .err e
  | @ok a c h => cases h' with | @ok b _ h' => exact .ok ⟨c, h, h'⟩

/-- Running functions from alike states, in C and CUDA. -/
theorem runs_alike {R : Runtime V} (hL : R.L ≠ .python) {x y : GWorld V} (h : Alike R.L x.s y.s) (t : Tbl) (fuel : Nat) (ps : List (Nat × Schedule)) :
    RelU (fun x y => Alike R.L x.s y.s) (ps.foldlM (Unf.runFunc R t fuel) x) (ps.foldlM (Unf.runFunc R t fuel) y) := by
  have h1 := RelU.foldlM (fun a b c hab => runFunc_by (R := R) (T := fun a b => parse R.L a = parse R.L b) (i := x.ind) (fun _ _ h => h) (fun ls => parse_shift hL _ ls)
    (t := t) (fuel := fuel) hab c) ps (a := x) (b := y.s) ⟨alike_iff.1 h, rfl⟩
  have h2 := RelU.foldlM (fun a b c hab => runFunc_by (R := R) (T := fun a b => parse R.L a = parse R.L b) (i := y.ind) (fun _ _ h => h) (fun ls => parse_shift hL _ ls)
    (t := t) (fuel := fuel) hab c) ps (a := y) (b := y.s) ⟨alike_iff.1 (.refl _ _), rfl⟩
  refine (h1.comp h2).mono ?_
  rintro a b ⟨c, hc, hc'⟩
  exact (alike_iff.2 hc.1).trans (alike_iff.2 hc'.1).symm

theorem lookup_alike {L : Lang} {s s' : SWorld V} (h : Alike L s s') {key : Key} (hn : s.texts.lookup key = none) : s'.texts.lookup key = none := by
  rcases lookup_by (T := fun a b => parse L a = parse L b) h.texts key with ⟨_, h⟩ | ⟨a, b, h, _⟩
  · exact h
  · rw [hn] at h; cases h

/-- An interruption from alike states leaves alike states. -/
theorem stopped_alike {R : Runtime V} (hL : R.L ≠ .python) {c c' : Bool} {x x' : GWorld V} {a : Nat} (hs : Unf.Stopped R c x a x') :
    ∀ {y : GWorld V}, Alike R.L x.s y.s → ∃ y', Unf.Stopped R c' y a y' ∧ Alike R.L x'.s y'.s := by
  induction hs with
  | view h1 h2 h3 _ ih =>
    intro y h
    obtain ⟨y', hy, ha⟩ := ih h
    rw [h.same] at h1 h2 h3
    exact ⟨y', .view h1 h2 h3 hy, ha⟩
  | @kernel a funcs t scheds pre post p x1 F outs key n o h1 h2 h3 h4 h5 h6 h7 h8 h9 h10 h11 =>
    intro y h
    have hw := h.same
    have hr := runs_alike (x := { x with s := { x.s with w := { x.s.w with log := x.s.w.log ++ (funcs.zip scheds).filterMap (plan1 x.s.w.g t (a + 2)) } } })
      (y := { y with s := { y.s with w := { y.s.w with log := y.s.w.log ++ (funcs.zip scheds).filterMap (plan1 y.s.w.g t (a + 2)) } } }) hL ⟨by rw [hw], h.texts⟩ t (a + 2) pre
    rw [h6] at hr
    generalize hz : pre.foldlM (Unf.runFunc R t (a + 2)) { y with s := { y.s with w := { y.s.w with log := y.s.w.log ++ (funcs.zip scheds).filterMap (plan1 y.s.w.g t (a + 2)) } } } = z at hr
    cases hr with
    | @ok _ y1 h12 =>
      have hw1 := h12.same
      rw [hw] at h1 h2 h3
      have htmp : ((Gen.codegen R.L (Text.kernName (R.digest key)) x1.s.w.g t F p.2 ⟨(Algo.args F.expr).1, (Algo.args F.expr).2⟩).stop n ⟨[], x1.ind, x1.s.w.tmp⟩).tmp =
        ((Gen.codegen R.L (Text.kernName (R.digest key)) y1.s.w.g t F p.2 ⟨(Algo.args F.expr).1, (Algo.args F.expr).2⟩).stop n ⟨[], y1.ind, y1.s.w.tmp⟩).tmp := by
        rw [hw1]
        exact codegen_stop_tmp _ _ _ _ _ _ _ n rfl
      refine ⟨_, .kernel n h1 h2 h3 h4 h5 hz h7 h8 (by rw [← hw1]; exact h9) (lookup_alike h12 h10) rfl, ?_, h12.texts⟩
      dsimp only
      rw [← h11, htmp, hw1]

/-- Sessions with interruptions are like sessions in which the generator is put in order. -/
theorem uruns_alike {P : World V → Call V → Prop} {R : Runtime V} (hL : R.L ≠ .python) {c c' : Bool} {x x' y : GWorld V} (h : URuns P R c x x') (ha : Alike R.L x.s y.s) :
    ∃ y', URuns P R c' y y' ∧ Alike R.L x'.s y'.s := by
  induction h with
  | refl => exact ⟨y, .refl, ha⟩
  | @call x1 x' cl o _ hp hs ih =>
    obtain ⟨y1, hy, h1⟩ := ih
    have := step_alike hL h1 cl
    rw [hs] at this
    cases hz : Unf.step R y1 cl with
    | error e => rw [hz] at this; exact this.elim
    | ok q => rw [hz] at this; exact ⟨q.2, .call hy (by rw [← h1.same]; exact hp) hz, this.2⟩
  | @stopped x1 x' a _ hlt hp hs ih =>
    obtain ⟨y1, hy, h1⟩ := ih
    obtain ⟨y', hs', h2⟩ := stopped_alike hL hs h1
    exact ⟨y', .stopped hy (by rw [← h1.same]; exact hlt) (by rw [← h1.same]; exact hp) hs', h2⟩

theorem rel_ind {R : Runtime V} {i : Nat} : ∀ (ps : List (Nat × Schedule)) {t : Tbl} {fuel : Nat} {x x' : GWorld V}, x.ind = i → ps.foldlM (Unf.runFunc R t fuel) x = .ok x' → x'.ind = i := by
  intro ps
  induction ps with
  | nil => intro t fuel x x' h e; cases e; exact h
  | cons p ps ih =>
    intro t fuel x x' h e
    rw [List.foldlM_cons] at e
    cases hr : Unf.runFunc R t fuel x p with
    | error e' => rw [hr] at e; cases e
    | ok x1 =>
      rw [hr] at e
      refine ih ?_ e
      unfold Unf.runFunc at hr
      cases hF : t p.1 with
      | none => rw [hF] at hr; cases hr
      | some F =>
        simp only [hF, bind, Except.bind] at hr
        cases ho : Src.lift (outBufs t (Algo.args F.expr).2) with
        | error e => rw [ho] at hr; cases hr
        | ok outs =>
          rw [ho] at hr
          simp only at hr
          cases hk : Src.lift (cacheKey x.s.w.g t fuel F p.2) with
          | error e => rw [hk] at hr; cases hr
          | ok key =>
            rw [hk] at hr
            simp only at hr
            cases hl : x.s.texts.lookup key with
            | some text =>
              rw [hl] at hr
              simp only at hr
              generalize Src.invoke R x.s p.2 text F.outBuffer ((Algo.args F.expr).1 ++ outs) = z at hr
              cases z with
              | error e => cases hr
              | ok s => cases hr; exact h
            | none =>
              rw [hl] at hr
              simp only at hr
              have hc := Gen.codegen_at R.L (Text.kernName (R.digest key)) x.s.w.g t F p.2 ⟨(Algo.args F.expr).1, (Algo.args F.expr).2⟩ [] x.ind x.s.w.tmp
              cases hg : Text.codegen R.L (Text.kernName (R.digest key)) x.s.w.g t F p.2 ⟨(Algo.args F.expr).1, (Algo.args F.expr).2⟩ x.s.w.tmp with
              | error e =>
                rw [hg] at hc
                cases hr2 : (Gen.codegen R.L (Text.kernName (R.digest key)) x.s.w.g t F p.2 ⟨(Algo.args F.expr).1, (Algo.args F.expr).2⟩).run ⟨[], x.ind, x.s.w.tmp⟩ with
                | mk r o => rw [hr2] at hc; cases hc; rw [hr2] at hr; cases hr
              | ok q =>
                rw [hg] at hc
                obtain ⟨ls, _, _, hr2⟩ := hc
                rw [hr2] at hr
                simp only at hr
                generalize Src.invoke R _ p.2 _ F.outBuffer ((Algo.args F.expr).1 ++ outs) = z at hr
                cases z with
                | error e => cases hr
                | ok s => cases hr; exact h

theorem materializeF_ind {R : Runtime V} : ∀ (fuel : Nat) {x x' : GWorld V} {a : Nat}, Unf.materializeF R fuel x a = .ok x' → x'.ind = x.ind
  | 0, _, _, _, h => by cases h
  | fuel + 1, x, x', a, h => by
    unfold Unf.materializeF at h
    split at h
    · cases h; rfl
    · split at h
      · split at h
        · exact materializeF_ind fuel h
        · cases h
      · simp only [bind, Except.bind] at h
        generalize Src.lift (Algo.convert x.s.w.g a) = u at h
        cases u with
        | error e => cases h
        | ok q =>
          obtain ⟨funcs, t⟩ := q
          simp only at h
          generalize Src.lift (schedAll R.b.isGpu t funcs) = u at h
          cases u with
          | error e => cases h
          | ok scheds => exact rel_ind (i := x.ind) (funcs.zip scheds) (by rfl) h

/-- A call that returns leaves the indentation as it was. -/
theorem step_ind {R : Runtime V} {x x' : GWorld V} {c : Call V} {o : Out V} (h : Unf.step R x c = .ok (o, x')) : x'.ind = x.ind := by
  unfold Unf.step at h
  split at h
  swap
  · cases h
  by_cases hm : ∃ a, c = .materialize a
  · obtain ⟨a, rfl⟩ := hm
    change (Unf.materializeF R (a + 1) x a).map (fun x => (Out.unit, x)) = _ at h
    cases hz : Unf.materializeF R (a + 1) x a with
    | error e => rw [hz] at h; cases h
    | ok x1 => rw [hz] at h; cases h; exact materializeF_ind _ hz
  · have hm : ∀ a, c ≠ .materialize a := fun a h => hm ⟨a, h⟩
    have e : Unf.exec1 R x c = (Src.exec1 R x.s c).map fun p => (p.1, { x with s := p.2 }) := by
      cases c <;> first | rfl | exact absurd rfl (hm _)
    rw [e] at h
    generalize Src.exec1 R x.s c = z at h
    cases z with
    | error e => cases h
    | ok q => cases h; rfl

theorem stopped_ind {R : Runtime V} {c : Bool} {x x' : GWorld V} {a : Nat} (h : Unf.Stopped R c x a x') : x.ind ≤ x'.ind ∧ (c = true → x'.ind = x.ind) := by
  induction h with
  | view _ _ _ _ ih => exact ih
  | @kernel a funcs t scheds pre post p x1 F outs key n o h1 h2 h3 h4 h5 h6 h7 h8 h9 h10 h11 =>
    have hi : x1.ind = x.ind := rel_ind (i := x.ind) pre (by rfl) h6
    cases c with
    | true => exact ⟨by show x.ind ≤ x1.ind; omega, fun _ => hi⟩
    | false =>
      refine ⟨?_, fun h => by cases h⟩
      show x.ind ≤ o.ind
      rw [← h11, ← hi]
      exact codegen_stop_ind R.L _ x1.s.w.g t F p.2 _ (w := ⟨[], x1.ind, x1.s.w.tmp⟩) n

theorem uruns_ind {P : World V → Call V → Prop} {R : Runtime V} {c : Bool} {x x' : GWorld V} (h : URuns P R c x x') : x.ind ≤ x'.ind ∧ (c = true → x'.ind = x.ind) := by
  induction h with
  | refl => exact ⟨Nat.le_refl _, fun _ => rfl⟩
  | call _ _ hs ih => rw [step_ind hs]; exact ih
  | stopped _ _ _ hs ih =>
    have := stopped_ind hs
    exact ⟨Nat.le_trans ih.1 this.1, fun h => (this.2 h).trans (ih.2 h)⟩

/-! ### Python -/

/-- What a step does on the Python backend when a block was left open, compared with the same step with a fresh generator: the same if no new source is needed; otherwise an exception. -/
def Crippled (i : Nat) (ts : List (Key × Str)) (u : Except SErr (GWorld V)) (v : Except SErr (SWorld V)) : Prop :=
  match v with
  | .ok s' => ts <+: s'.texts ∧ if s'.texts = ts then u = .ok ⟨s', i⟩ else u = .error .syntaxError
  | .error e => u = .error e ∨ u = .error .syntaxError

theorem invoke_texts {R : Runtime V} {s s' : SWorld V} {sch : Schedule} {text : Str} {out : Nat} {ins : List Nat} (h : Src.invoke R s sch text out ins = .ok s') : s'.texts = s.texts := by
  obtain ⟨w, ts⟩ := s
  have := invoke_by (R := R) (w := w) (ts := ts) (ts' := ts) (sch := sch) (text := text) rfl out ins
  rw [h] at this
  cases this with
  | ok h => exact h.2.1

theorem invoke_syntax {R : Runtime V} (hL : R.L = .python) {i : Nat} (hi : 0 < i) {ls : List Str} (h : imports .python <+: ls) (s : SWorld V) (sch : Schedule) (out : Nat) (ins : List Nat) :
    Src.invoke R s sch (join ['\n'] (ls.map (Gen.shift i))) out ins = .error .syntaxError := by
  unfold Src.invoke
  rw [hL, parse_indented hi h]

theorem runFunc_crippled {R : Runtime V} (hL : R.L = .python) {i : Nat} (hi : 0 < i) (t : Tbl) (fuel : Nat) (s : SWorld V) (p : Nat × Schedule) :
    Crippled i s.texts (Unf.runFunc R t fuel ⟨s, i⟩ p) (Src.runFunc R t fuel s p) := by
  unfold Unf.runFunc Src.runFunc
  cases t p.1 with
  | none => exact .inl rfl
  | some F =>
    simp only [bind, Except.bind]
    cases Src.lift (outBufs t (Algo.args F.expr).2) with
    | error e => exact .inl rfl
    | ok outs =>
      simp only
      cases Src.lift (cacheKey s.w.g t fuel F p.2) with
      | error e => exact .inl rfl
      | ok key =>
        simp only
        cases hl : s.texts.lookup key with
        | some text =>
          simp only
          cases hv : Src.invoke R s p.2 text F.outBuffer ((Algo.args F.expr).1 ++ outs) with
          | error e => exact .inl rfl
          | ok s' =>
            have := invoke_texts hv
            refine ⟨by rw [this], ?_⟩
            rw [if_pos this]; rfl
        | none =>
          simp only
          have hc := Gen.codegen_at R.L (Text.kernName (R.digest key)) s.w.g t F p.2 ⟨(Algo.args F.expr).1, (Algo.args F.expr).2⟩ [] i s.w.tmp
          cases hg : Text.codegen R.L (Text.kernName (R.digest key)) s.w.g t F p.2 ⟨(Algo.args F.expr).1, (Algo.args F.expr).2⟩ s.w.tmp with
          | error e =>
            rw [hg] at hc
            cases hr : (Gen.codegen R.L (Text.kernName (R.digest key)) s.w.g t F p.2 ⟨(Algo.args F.expr).1, (Algo.args F.expr).2⟩).run ⟨[], i, s.w.tmp⟩ with
            | mk r o => rw [hr] at hc; cases hc; exact .inl rfl
          | ok q =>
            obtain ⟨text, n⟩ := q
            rw [hg] at hc
            obtain ⟨ls, rfl, hp, hr⟩ := hc
            rw [hr]
            simp only
            rw [invoke_syntax hL hi (hL ▸ hp)]
            simp only [Src.lift]
            cases hv : Src.invoke R { w := { s.w with tmp := n }, texts := s.texts ++ [(key, join ['\n'] ls)] } p.2 (join ['\n'] ls) F.outBuffer ((Algo.args F.expr).1 ++ outs) with
            | error e => exact .inr rfl
            | ok s' =>
              have := invoke_texts hv
              refine ⟨by rw [this]; exact List.prefix_append _ _, ?_⟩
              rw [if_neg (by rw [this]; simp)]

theorem runs_crippled {R : Runtime V} (hL : R.L = .python) {i : Nat} (hi : 0 < i) (t : Tbl) (fuel : Nat) : ∀ (ps : List (Nat × Schedule)) (s : SWorld V),
    Crippled i s.texts (ps.foldlM (Unf.runFunc R t fuel) ⟨s, i⟩) (ps.foldlM (Src.runFunc R t fuel) s)
  | [], s => ⟨List.prefix_rfl, by rw [if_pos rfl]; rfl⟩
  | p :: ps, s => by
    rw [List.foldlM_cons, List.foldlM_cons]
    have h1 := runFunc_crippled hL hi t fuel s p
    cases hv : Src.runFunc R t fuel s p with
    | error e =>
      rw [hv] at h1
      rcases h1 with h1 | h1 <;> rw [h1]
      · exact .inl rfl
      · exact .inr rfl
    | ok s1 =>
      rw [hv] at h1
      obtain ⟨hpre, h1⟩ := h1
      have h2 := runs_crippled hL hi t fuel ps s1
      change Crippled i s.texts _ (ps.foldlM (Src.runFunc R t fuel) s1)
      split at h1
      · rename_i he
        rw [h1]
        rw [he] at h2
        exact h2
      · rename_i he
        rw [h1]
        cases hv2 : ps.foldlM (Src.runFunc R t fuel) s1 with
        | error e => exact .inr rfl
        | ok s2 =>
          rw [hv2] at h2
          refine ⟨hpre.trans h2.1, ?_⟩
          rw [if_neg ?_]
          · rfl
          · intro h3
            apply he
            have := h2.1
            rw [h3] at this
            exact (this.eq_of_length_le hpre.length_le)

theorem materializeF_crippled {R : Runtime V} (hL : R.L = .python) {i : Nat} (hi : 0 < i) : ∀ (fuel : Nat) (s : SWorld V) (a : Nat),
    Crippled i s.texts (Unf.materializeF R fuel ⟨s, i⟩ a) (Src.materializeF R fuel s a)
  | 0, _, _ => .inl rfl
  | fuel + 1, s, a => by
    unfold Unf.materializeF Src.materializeF
    dsimp only
    split
    · exact ⟨List.prefix_rfl, by rw [if_pos rfl]⟩
    · split
      · cases (s.w.g.ctx a).inputs with
        | nil => exact .inl rfl
        | cons y l => exact materializeF_crippled hL hi fuel s y
      · simp only [bind, Except.bind]
        cases Src.lift (Algo.convert s.w.g a) with
        | error e => exact .inl rfl
        | ok q =>
          simp only
          cases Src.lift (schedAll R.b.isGpu q.2 q.1) with
          | error e => exact .inl rfl
          | ok scheds => exact runs_crippled hL hi _ _ _ { s with w := { s.w with log := s.w.log ++ (q.1.zip scheds).filterMap (plan1 s.w.g q.2 (a + 2)) } }

/-- A call on the Python backend when a block was left open. -/
theorem step_crippled {R : Runtime V} (hL : R.L = .python) {i : Nat} (hi : 0 < i) (s : SWorld V) (c : Call V) :
    (∀ e, Src.step R s c = .error e → Unf.step R ⟨s, i⟩ c = .error e ∨ Unf.step R ⟨s, i⟩ c = .error .syntaxError) ∧
    ∀ o s', Src.step R s c = .ok (o, s') → (s'.texts = s.texts ∨ c = .reset → Unf.step R ⟨s, i⟩ c = .ok (o, ⟨s', i⟩)) ∧
      (s'.texts ≠ s.texts → c ≠ .reset → Unf.step R ⟨s, i⟩ c = .error .syntaxError) := by
  unfold Unf.step Src.step
  dsimp only
  split
  swap
  · exact ⟨fun _ h => .inl (by cases h; rfl), fun _ _ h => by cases h⟩
  by_cases hm : ∃ a, c = .materialize a
  · obtain ⟨a, rfl⟩ := hm
    have := materializeF_crippled hL hi (a + 1) s a
    have e1 : Src.exec1 R s (.materialize a) = (Src.materializeF R (a + 1) s a).map fun s => (Out.unit, s) := rfl
    have e2 : Unf.exec1 R ⟨s, i⟩ (.materialize a) = (Unf.materializeF R (a + 1) ⟨s, i⟩ a).map fun s => (Out.unit, s) := rfl
    rw [e1, e2]
    cases hv : Src.materializeF R (a + 1) s a with
    | error e =>
      rw [hv] at this
      refine ⟨fun e' h => ?_, fun _ _ h => by cases h⟩
      cases h
      rcases this with h | h <;> rw [h]
      · exact .inl rfl
      · exact .inr rfl
    | ok s' =>
      rw [hv] at this
      obtain ⟨_, h⟩ := this
      refine ⟨fun _ h => (by cases h), fun o s2 h2 => ?_⟩
      cases h2
      refine ⟨fun he => ?_, fun he _ => ?_⟩
      · rcases he with he | he
        · rw [if_pos he] at h; rw [h]; rfl
        · cases he
      · rw [if_neg he] at h; rw [h]; rfl
  · have hm : ∀ a, c ≠ .materialize a := fun a h => hm ⟨a, h⟩
    have e : Unf.exec1 R ⟨s, i⟩ c = (Src.exec1 R s c).map fun p => (p.1, ⟨p.2, i⟩) := by
      cases c <;> first | rfl | exact absurd rfl (hm _)
    rw [e]
    cases hv : Src.exec1 R s c with
    | error e => exact ⟨fun _ h => .inl (by cases h; rfl), fun _ _ h => by cases h⟩
    | ok q =>
      obtain ⟨o, s'⟩ := q
      refine ⟨fun _ h => (by cases h), fun o s2 h2 => ?_⟩
      cases h2
      refine ⟨fun _ => rfl, fun he hr => absurd ?_ he⟩
      have hs : Src.exec1 R s c = (Src.lift (Hist.exec1 R.b s.w c)).map fun p => (p.1, ⟨p.2, s.texts⟩) := by
        cases c <;> first | rfl | exact absurd rfl (hm _) | exact absurd rfl hr
      rw [hs] at hv
      generalize Src.lift (Hist.exec1 R.b s.w c) = z at hv
      cases z with
      | error e => cases hv
      | ok q => cases hv; rfl

/-- With a block left open, the Python backend never again adds a compiled source. -/
theorem step_old {R : Runtime V} (hL : R.L = .python) {x x' : GWorld V} (hi : 0 < x.ind) {c : Call V} {o : Out V} (h : Unf.step R x c = .ok (o, x')) : ∀ q ∈ x'.s.texts, q ∈ x.s.texts := by
  obtain ⟨s, i⟩ := x
  obtain ⟨h1, h2⟩ := step_crippled hL hi s c
  cases hv : Src.step R s c with
  | error e => rcases h1 e hv with h3 | h3 <;> (rw [h] at h3; cases h3)
  | ok q =>
    obtain ⟨o', s'⟩ := q
    obtain ⟨h3, h4⟩ := h2 o' s' hv
    by_cases hr : c = .reset
    · have := h3 (.inr hr)
      rw [h] at this
      cases this
      subst hr
      unfold Src.step at hv
      split at hv
      · cases hv; intro q hq; cases hq
      · cases hv
    · by_cases ht : s'.texts = s.texts
      · have := h3 (.inl ht)
        rw [h] at this
        cases this
        intro q hq
        rw [← ht]; exact hq
      · have := h4 ht hr
        rw [h] at this
        cases this

theorem stopped_old {R : Runtime V} (hL : R.L = .python) {x x' : GWorld V} {c : Bool} {a : Nat} (h : Unf.Stopped R c x a x') : 0 < x.ind → ∀ q ∈ x'.s.texts, q ∈ x.s.texts := by
  induction h with
  | view _ _ _ _ ih => exact ih
  | @kernel a funcs t scheds pre post p x1 F outs key n o h1 h2 h3 h4 h5 h6 h7 h8 h9 h10 h11 =>
    intro hi
    generalize hs : ({ x.s with w := { x.s.w with log := x.s.w.log ++ (funcs.zip scheds).filterMap (plan1 x.s.w.g t (a + 2)) } } : SWorld V) = s at h6
    have ht : s.texts = x.s.texts := by rw [← hs]
    have := runs_crippled hL hi t (a + 2) pre s
    cases hv : pre.foldlM (Src.runFunc R t (a + 2)) s with
    | error e =>
      rw [hv] at this
      rcases this with h | h <;> (change pre.foldlM _ (⟨s, x.ind⟩ : GWorld V) = _ at h; rw [h] at h6; cases h6)
    | ok s1 =>
      rw [hv] at this
      obtain ⟨_, h⟩ := this
      split at h
      · rename_i he
        rw [h] at h6
        cases h6
        intro q hq
        rw [← ht, ← he]; exact hq
      · rw [h] at h6; cases h6

theorem uruns_old {P : World V → Call V → Prop} {R : Runtime V} (hL : R.L = .python) {x x' : GWorld V} {c : Bool} (h : URuns P R c x x') (hi : 0 < x.ind) : ∀ q ∈ x'.s.texts, q ∈ x.s.texts := by
  induction h with
  | refl => exact fun _ h => h
  | call hx _ hs ih => exact fun q hq => ih q (step_old hL (Nat.lt_of_lt_of_le hi (uruns_ind hx).1) hs q hq)
  | stopped hx _ _ hs ih => exact fun q hq => ih q (stopped_old hL hs (Nat.lt_of_lt_of_le hi (uruns_ind hx).1) q hq)

theorem runs_fresh (R : Runtime V) (t : Tbl) (fuel : Nat) (ps : List (Nat × Schedule)) (s : SWorld V) :
    ps.foldlM (Unf.runFunc R t fuel) ⟨s, 0⟩ = (ps.foldlM (Src.runFunc R t fuel) s).map fun s => ⟨s, 0⟩ := by
  have h := RelU.foldlM (P := Unf.Rel (· = ·) 0) (f := Unf.runFunc R t fuel) (g := Src.runFunc R t fuel)
    (fun a b c hab => runFunc_by (fun a b h => by rw [h]) (fun ls => by rw [List.map_congr_left (g := id) fun a _ => shift_zero a, List.map_id]) hab c) ps
    (a := ⟨s, 0⟩) (b := s) ⟨.refl (fun _ => rfl) s, rfl⟩
  generalize ps.foldlM (Unf.runFunc R t fuel) ⟨s, 0⟩ = u at h ⊢
  generalize ps.foldlM (Src.runFunc R t fuel) s = v at h ⊢
  cases h with
  | err e => rfl
  | @ok a b h =>
    obtain ⟨s1, j⟩ := a
    obtain ⟨h1, rfl⟩ := h
    have h1 := alikeBy_eq.1 h1
    dsimp only at h1
    subst h1
    rfl

/-- On the Python backend a session is, except for the generator, a session in which the generator is put in order. -/
theorem stopped_python {R : Runtime V} (hL : R.L = .python) {x x' : GWorld V} {a : Nat} (h : Unf.Stopped R false x a x') : ∃ y', Unf.Stopped R true ⟨x.s, 0⟩ a y' ∧ y'.s = x'.s := by
  induction h with
  | view h1 h2 h3 _ ih =>
    obtain ⟨y', hy, e⟩ := ih
    exact ⟨y', .view h1 h2 h3 hy, e⟩
  | @kernel a funcs t scheds pre post p x1 F outs key n o h1 h2 h3 h4 h5 h6 h7 h8 h9 h10 h11 =>
    generalize hs : ({ x.s with w := { x.s.w with log := x.s.w.log ++ (funcs.zip scheds).filterMap (plan1 x.s.w.g t (a + 2)) } } : SWorld V) = s at h6
    have hfold : pre.foldlM (Unf.runFunc R t (a + 2)) (⟨s, 0⟩ : GWorld V) = .ok ⟨x1.s, 0⟩ := by
      rw [runs_fresh]
      rcases Nat.eq_zero_or_pos x.ind with hi | hi
      · change pre.foldlM _ (⟨s, x.ind⟩ : GWorld V) = _ at h6
        rw [hi, runs_fresh] at h6
        generalize pre.foldlM (Src.runFunc R t (a + 2)) s = z at h6 ⊢
        cases z with
        | error e => cases h6
        | ok s1 => cases h6; rfl
      · have := runs_crippled hL hi t (a + 2) pre s
        cases hv : pre.foldlM (Src.runFunc R t (a + 2)) s with
        | error e =>
          rw [hv] at this
          rcases this with h | h <;> (change pre.foldlM _ (⟨s, x.ind⟩ : GWorld V) = _ at h; rw [h] at h6; cases h6)
        | ok s1 =>
          rw [hv] at this
          obtain ⟨_, h⟩ := this
          split at h
          · rw [h] at h6; cases h6; rfl
          · rw [h] at h6; cases h6
    have htmp : ((Gen.codegen R.L (Text.kernName (R.digest key)) x1.s.w.g t F p.2 ⟨(Algo.args F.expr).1, (Algo.args F.expr).2⟩).stop n ⟨[], 0, x1.s.w.tmp⟩).tmp = o.tmp := by
      rw [← h11]; exact codegen_stop_tmp _ _ _ _ _ _ _ n rfl
    subst hs
    refine ⟨_, .kernel (x1 := ⟨x1.s, 0⟩) n h1 h2 h3 h4 h5 hfold h7 h8 h9 h10 rfl, ?_⟩
    dsimp only
    rw [htmp]

theorem uruns_python {P : World V → Call V → Prop} {R : Runtime V} (hL : R.L = .python) {x x' : GWorld V} (h : URuns P R false x x') : ∃ y', URuns P R true ⟨x.s, 0⟩ y' ∧ y'.s = x'.s := by
  induction h with
  | refl => exact ⟨_, .refl, rfl⟩
  | @call x1 x' cl o _ hp hs ih =>
    obtain ⟨⟨s1, j⟩, hy, rfl⟩ := ih
    have hj : j = 0 := (uruns_ind hy).2 rfl
    subst hj
    have hsrc : Src.step R x1.s cl = .ok (o, x'.s) := by
      rcases Nat.eq_zero_or_pos x1.ind with hi | hi
      · have e : x1 = ⟨x1.s, 0⟩ := by rw [← hi]
        rw [e, step_fresh] at hs
        generalize Src.step R x1.s cl = z at hs
        cases z with
        | error e => cases hs
        | ok q => cases hs; rfl
      · obtain ⟨k1, k2⟩ := step_crippled hL hi x1.s cl
        cases hv : Src.step R x1.s cl with
        | error e => rcases k1 e hv with k | k <;> (change Unf.step R x1 cl = _ at k; rw [hs] at k; cases k)
        | ok q =>
          obtain ⟨o', s'⟩ := q
          obtain ⟨k3, k4⟩ := k2 o' s' hv
          by_cases hc : s'.texts = x1.s.texts ∨ cl = .reset
          · have := k3 hc
            change Unf.step R x1 cl = _ at this
            rw [hs] at this; cases this; rfl
          · have := k4 (fun h => hc (.inl h)) (fun h => hc (.inr h))
            change Unf.step R x1 cl = _ at this
            rw [hs] at this; cases this
    exact ⟨⟨x'.s, 0⟩, .call hy hp (by rw [step_fresh, hsrc]; rfl), rfl⟩
  | @stopped x1 x' a _ hlt hp hs ih =>
    obtain ⟨⟨s1, j⟩, hy, rfl⟩ := ih
    have hj : j = 0 := (uruns_ind hy).2 rfl
    subst hj
    obtain ⟨y', hs', e⟩ := stopped_python hL hs
    exact ⟨y', .stopped hy hlt hp hs', e⟩

end Whale
