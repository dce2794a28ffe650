import Verif.Spec.Debug
import Verif.Proofs.Str
import Verif.Proofs.Source
/-
Debug mode.
-/
namespace Whale
open Hist Mat
variable {V : Type}

namespace Dbg

/-! ### trees can be printed -/

theorem arrTree_ok {num : V → Str} {w : World V} (hw : WF w.g) (hs : ∀ i, i < w.g.length → ∃ l, str num w i = .ok l) :
    ∀ fuel a, a < fuel → a < w.g.length → ∃ T, arrTree num w fuel a = .ok T := by
  intro fuel
  induction fuel with
  | zero => intro a h; omega
  | succ fuel ih =>
    intro a hf ha
    obtain ⟨l, hl⟩ := hs a ha
    have : ∃ ks, (w.g.ctx a).inputs.mapM (arrTree num w fuel) = .ok ks := by
      have hin : ∀ x ∈ (w.g.ctx a).inputs, ∃ T, arrTree num w fuel x = .ok T := fun x hx =>
        ih x (by have := hw.inputs_lt ha x hx; omega) (by have := hw.inputs_lt ha x hx; omega)
      revert hin
      generalize (w.g.ctx a).inputs = xs
      intro hin
      induction xs with
      | nil => exact ⟨[], rfl⟩
      | cons x xs ihx =>
        obtain ⟨T, hT⟩ := hin x (by simp)
        obtain ⟨ks, hks⟩ := ihx fun y hy => hin y (by simp [hy])
        exact ⟨T :: ks, by rw [List.mapM_cons, hT, ]; simp only [bind, Except.bind, hks]; rfl⟩
    obtain ⟨ks, hks⟩ := this
    exact ⟨.node l ks, by unfold arrTree; simp only [hl, hks, bind, Except.bind]; rfl⟩

theorem exprTreeE_ok {num : V → Str} {w : World V} {visit : Nat → Except Err RT} {e : DExpr}
    (hv : ∀ f ∈ Algo.funcRefs e, ∃ r, visit f = .ok r) : ∃ r, exprTreeE num w visit e = .ok r := by
  induction e with
  | const c => exact ⟨_, rfl⟩
  | un op e ih => obtain ⟨r, hr⟩ := ih hv; exact ⟨_, by simp only [exprTreeE, hr]; rfl⟩
  | bin op l r ihl ihr =>
    obtain ⟨r1, h1⟩ := ihl (fun f hf => hv f (List.mem_append_left _ hf))
    obtain ⟨r2, h2⟩ := ihr (fun f hf => hv f (List.mem_append_right _ hf))
    exact ⟨_, by simp only [exprTreeE, h1, h2, bind, Except.bind]; rfl⟩
  | tern op c t f ihl ihr =>
    obtain ⟨r1, h1⟩ := ihl (fun f hf => hv f (List.mem_append_left _ hf))
    obtain ⟨r2, h2⟩ := ihr (fun f hf => hv f (List.mem_append_right _ hf))
    exact ⟨_, by simp only [exprTreeE, h1, h2, bind, Except.bind]; rfl⟩
  | red op e rs ih => obtain ⟨r, hr⟩ := ih hv; exact ⟨_, by simp only [exprTreeE, hr]; rfl⟩
  | func f idx => obtain ⟨r, hr⟩ := hv f (by simp [Algo.funcRefs]); exact ⟨_, by simp only [exprTreeE, hr]; rfl⟩
  | buf n idx => exact ⟨_, rfl⟩

theorem funcTree_ok {num : V → Str} {w : World V} {t : Tbl} {S : Nat → Prop} (hS : ∀ f, S f → ∃ F, t f = some F ∧ ∀ d ∈ Algo.funcRefs F.expr, S d ∧ d < f)
    (fuel : Nat) : ∀ f, f < fuel → S f → ∃ r, funcTree num w t fuel f = .ok r := by
  induction fuel with
  | zero => intro f h; omega
  | succ fuel ih =>
    intro f hl hf
    obtain ⟨F, hF, hd⟩ := hS f hf
    obtain ⟨k, hk⟩ := exprTreeE_ok (num := num) (w := w) (visit := funcTree num w t fuel) (e := F.expr) fun d hd' => ih d (by have := (hd d hd').2; omega) (hd d hd').1
    exact ⟨_, by unfold funcTree; simp only [hF, hk, bind, Except.bind]; rfl⟩

/-! ### the results are those without debug mode -/

theorem runFunc_fst (R : Runtime V) (t : Tbl) (fuel : Nat) (st : SWorld V × List Str) (p : (Nat × Schedule) × Nat) :
    (runFunc R t fuel st p).map (·.1) = Src.runFunc R t fuel st.1 p.1 := by
  unfold runFunc Src.runFunc
  simp only
  cases t p.1.1 with
  | none => rfl
  | some F =>
    simp only
    cases Src.lift (outBufs t (Algo.args F.expr).2) with
    | error e => rfl
    | ok outs =>
      simp only [bind, Except.bind]
      cases Src.lift (cacheKey st.1.w.g t fuel F p.1.2) with
      | error e => rfl
      | ok key =>
        simp only
        cases st.1.texts.lookup key with
        | some text =>
          simp only
          cases Src.invoke R st.1 p.1.2 text F.outBuffer ((Algo.args F.expr).1 ++ outs) <;> rfl
        | none =>
          simp only
          cases Src.lift (Text.codegen R.L (Text.kernName (R.digest key)) st.1.w.g t F p.1.2 ⟨(Algo.args F.expr).1, (Algo.args F.expr).2⟩ st.1.w.tmp) with
          | error e => rfl
          | ok r =>
            simp only
            cases Src.invoke R { w := { st.1.w with tmp := r.2 }, texts := st.1.texts ++ [(key, r.1)] } p.1.2 r.1 F.outBuffer ((Algo.args F.expr).1 ++ outs) <;> rfl

theorem runFuncs_fst (R : Runtime V) (t : Tbl) (fuel : Nat) (ps : List (Nat × Schedule)) : ∀ (k : Nat) (st : SWorld V × List Str),
    ((ps.zipIdx k).foldlM (runFunc R t fuel) st).map (·.1) = ps.foldlM (Src.runFunc R t fuel) st.1 := by
  induction ps with
  | nil => intro k st; rfl
  | cons p ps ih =>
    intro k st
    rw [List.zipIdx_cons, List.foldlM_cons, List.foldlM_cons, ← runFunc_fst R t fuel st (p, k)]
    cases runFunc R t fuel st (p, k) with
    | error e => rfl
    | ok st' => exact ih (k + 1) st'

theorem mapM_plans {num : V → Str} {w : World V} {t : Tbl} {fuel : Nat} : ∀ (ps : List ((Nat × Schedule) × Nat)), (∀ p ∈ ps, ∃ r, funcTree num w t fuel p.1.1 = .ok r) →
    ∃ r, ps.mapM (plan num w t fuel) = .ok r := by
  intro ps
  induction ps with
  | nil => intro _; exact ⟨[], rfl⟩
  | cons p ps ih =>
    intro h
    obtain ⟨r, hr⟩ := h p (by simp)
    obtain ⟨rs, hrs⟩ := ih fun q hq => h q (by simp [hq])
    obtain ⟨y, this⟩ : ∃ y, plan num w t fuel p = .ok y := by unfold plan; rw [lift_ok hr]; exact ⟨_, rfl⟩
    exact ⟨_, by rw [List.mapM_cons, this]; simp only [bind, Except.bind, hrs]; rfl⟩

/-- What is needed: the arrays can be printed, and so can the functions that the array's owner converts to. -/
structure Printable (num : V → Str) (w : World V) (a : Nat) : Prop where
  wf : WF w.g
  lt : a < w.g.length
  str : ∀ i, i < w.g.length → ∃ l, str num w i = .ok l
  funcs : ∀ funcs t, (w.g.ctx (base w.g a)).op.isConst = false → Algo.convert w.g (base w.g a) = .ok (funcs, t) → ∀ f ∈ funcs, ∃ r, funcTree num w t (base w.g a + 2) f = .ok r

theorem zip_fst {α β : Type} {l : List α} {l' : List β} {k : Nat} {p : (α × β) × Nat} (h : p ∈ (l.zip l').zipIdx k) : p.1.1 ∈ l := by
  have := List.mem_zipIdx h
  have h2 : p.1 ∈ l.zip l' := by rw [this.2.2]; exact List.getElem_mem _
  exact (List.of_mem_zip (by exact h2 : (p.1.1, p.1.2) ∈ l.zip l')).1

theorem materializeF_fst {R : Runtime V} {num : V → Str} {s : SWorld V} : ∀ fuel a, a < fuel → Printable num s.w a →
    (materializeF R num fuel s a).map (·.1) = Src.materializeF R fuel s a := by
  intro fuel
  induction fuel with
  | zero => intro a h; omega
  | succ fuel ih =>
    intro a hf hp
    obtain ⟨T, hT⟩ := arrTree_ok hp.wf hp.str (a + 1) a (by omega) hp.lt
    obtain ⟨out, hst⟩ : ∃ y, start R num s.w a = .ok y := by unfold start; rw [lift_ok hT]; exact ⟨_, rfl⟩
    unfold materializeF Src.materializeF
    rw [hst]
    simp only [bind, Except.bind]
    by_cases hc : (s.w.g.ctx a).op.isConst = true
    · rw [if_pos hc, if_pos hc]; rfl
    rw [if_neg hc, if_neg hc]
    by_cases hv : (s.w.g.ctx a).op.isView = true
    · rw [if_pos hv, if_pos hv]
      obtain ⟨x, hx⟩ := view_input hv hp.wf hp.lt
      rw [hx]
      simp only
      have hlt := hp.wf.inputs_lt hp.lt x (by rw [hx]; simp)
      have := ih x (by omega) ⟨hp.wf, by have := hp.lt; omega, hp.str, by have := hp.funcs; rw [base_view hp.wf hp.lt hv hx] at this; exact this⟩
      rw [← this]
      cases materializeF R num fuel s x <;> rfl
    · rw [if_neg hv, if_neg hv]
      have hfu := hp.funcs
      rw [base_nonview (by simpa using hv)] at hfu
      cases hcv : Algo.convert s.w.g a with
      | error e => rfl
      | ok r =>
        obtain ⟨funcs, t⟩ := r
        simp only [Src.lift]
        cases hsa : schedAll R.b.isGpu t funcs with
        | error e => rfl
        | ok scheds =>
          simp only
          obtain ⟨pl, hpl⟩ := mapM_plans (num := num) (w := s.w) (t := t) (fuel := a + 2) (funcs.zip scheds).zipIdx fun p hp' => hfu funcs t (by simpa using hc) hcv _ (zip_fst hp')
          rw [hpl]
          exact runFuncs_fst R t (a + 2) _ 0 _

/-! ### the lines of a tree -/

theorem mapM_forall₂ {α β : Type} {f : α → Except Err β} : ∀ {l : List α} {r : List β}, l.mapM f = .ok r → List.Forall₂ (fun x y => f x = .ok y) l r := by
  intro l
  induction l with
  | nil => intro r h; cases h; exact .nil
  | cons x l ih =>
    intro r h
    rw [List.mapM_cons] at h
    obtain ⟨y, hy, h⟩ := except_bind_ok h
    obtain ⟨ys, hys, h⟩ := except_bind_ok h
    cases h
    exact .cons hy (ih hys)

theorem lines_visits {num : V → Str} {w : World V} (hw : WF w.g) : ∀ fuel a T, a < w.g.length → arrTree num w fuel a = .ok T → ∀ (d : Nat) (pre : Str) (last : Bool),
    pre.length = 8 + 3 * d → (∀ c ∈ pre, c ∈ " │├└─".toList) → List.Forall₂ (Line num w) (visits w.g d a) (T.lines (decide (0 < d)) pre last) := by
  intro fuel
  induction fuel with
  | zero => intro a T _ h; cases h
  | succ fuel ih =>
    intro a T ha h d pre last hpre hch
    unfold arrTree at h
    obtain ⟨l, hl, h⟩ := except_bind_ok h
    obtain ⟨ks, hks, h⟩ := except_bind_ok h
    cases h
    unfold visits RT.lines
    refine .cons ?_ ?_
    · refine ⟨pre ++ (if decide (0 < d) = true then (if last then "└─ ".toList else "├─ ".toList) else []), l, hl, by rw [List.append_assoc], ?_, ?_⟩
      · unfold column
        by_cases hd : d = 0
        · subst hd; simp [hpre]
        · have : 0 < d := by omega
          cases last <;> simp [this, hd, hpre]
      · intro c hc
        rcases List.mem_append.1 hc with hc | hc
        · exact hch c hc
        · by_cases hd : 0 < d
          · rw [if_pos (by simpa using hd)] at hc
            cases last
            · exact (by decide : ∀ c ∈ "├─ ".toList, c ∈ " │├└─".toList) c hc
            · exact (by decide : ∀ c ∈ "└─ ".toList, c ∈ " │├└─".toList) c hc
          · rw [if_neg (by simpa using hd)] at hc; cases hc
    · have hp' : (pre ++ (if last then "   ".toList else "│  ".toList)).length = 8 + 3 * (d + 1) := by cases last <;> simp [hpre] <;> omega
      have hch' : ∀ c ∈ pre ++ (if last then "   ".toList else "│  ".toList), c ∈ " │├└─".toList := by
        intro c hc
        rcases List.mem_append.1 hc with hc | hc
        · exact hch c hc
        · cases last
          · exact (by decide : ∀ c ∈ "│  ".toList, c ∈ " │├└─".toList) c hc
          · exact (by decide : ∀ c ∈ "   ".toList, c ∈ " │├└─".toList) c hc
      generalize pre ++ (if last then "   ".toList else "│  ".toList) = pre' at hp' hch'
      have key : ∀ (xs : List Nat) (ks : List RT), List.Forall₂ (fun x y => arrTree num w fuel x = .ok y) xs ks → (∀ x ∈ xs, x < a) →
          List.Forall₂ (Line num w) (xs.flatMap fun x => if _h : x < a then visits w.g (d + 1) x else []) (kidLines ks pre') := by
        intro xs ks hall
        induction hall with
        | nil => intro _; exact .nil
        | @cons x k xs ks hxk _ ihx =>
          intro hin
          rw [List.flatMap_cons, kidLines]
          have hx := hin x (by simp)
          refine List.rel_append ?_ (ihx fun y hy => hin y (by simp [hy]))
          rw [dif_pos hx]
          have := ih x k (by omega) hxk (d + 1) pre' ks.isEmpty hp' hch'
          rw [show decide (0 < d + 1) = true by simp] at this
          exact this
      exact key _ _ (mapM_forall₂ hks) fun x hx => hw.inputs_lt ha x hx

mutual
theorem lines_prefix (T : RT) (inner : Bool) (pre : Str) (last : Bool) : ∀ l ∈ T.lines inner pre last, pre <+: l := by
  intro l hl
  cases T with
  | node label kids =>
    rw [RT.lines] at hl
    rcases List.mem_cons.1 hl with rfl | hl
    · exact List.prefix_append _ _
    · exact (List.prefix_append _ _).trans (kidLines_prefix kids _ l hl)
theorem kidLines_prefix (ks : List RT) (pre : Str) : ∀ l ∈ kidLines ks pre, pre <+: l := by
  intro l hl
  match ks with
  | [] => rw [kidLines] at hl; cases hl
  | k :: ks =>
    rw [kidLines] at hl
    rcases List.mem_append.1 hl with hl | hl
    · exact lines_prefix k _ _ _ l hl
    · exact kidLines_prefix ks pre l hl
end

/-! ### headings -/

/-- A line that is not one of the two headings that say where a kernel came from. -/
def Other (l : Str) : Prop := l ≠ dbg "kernel codegen:".toList ∧ l ≠ dbg "kernel cache hit".toList

theorem other_space {l : Str} (h : l.head? = some ' ') : Other l := by
  constructor <;> (rintro rfl; revert h; decide)

theorem other_prefix {pre l : Str} (h : pre <+: l) (hp : pre.head? = some ' ') : Other l := by
  obtain ⟨r, rfl⟩ := h
  cases pre with
  | nil => cases hp
  | cons c cs => exact other_space hp

theorem other_num (i : Int) (r : Str) : Other (dbg (intText i ++ r)) := by
  obtain ⟨c, cs, h, hc⟩ := intText_head i
  rw [h]
  constructor <;> (intro e; have := congrArg (fun l => l[8]?) e; change some c = some 'k' at this; cases this; rcases hc with hc | hc <;> exact absurd hc (by decide))

theorem other_tree (T : RT) : ∀ l ∈ tree T, Other l := fun l hl => other_prefix (lines_prefix T _ _ _ l hl) (by decide)

theorem other_schedule (s : Schedule) : ∀ l ∈ schedule s, Other l := by
  intro l hl
  unfold schedule at hl
  rcases List.mem_cons.1 hl with rfl | hl
  · exact other_space (by decide)
  · rcases List.mem_append.1 hl with hl | hl <;> (obtain ⟨x, _, rfl⟩ := List.mem_map.1 hl; exact other_prefix (List.prefix_append _ _) (by decide))

theorem other_kernel (code : Str) : ∀ l ∈ kernel code, Other l := by
  intro l hl
  obtain ⟨x, _, rfl⟩ := List.mem_map.1 hl
  exact other_prefix (List.prefix_append _ _) (by decide)

theorem other_start {R : Runtime V} {num : V → Str} {w : World V} {a : Nat} {out : List Str} (h : start R num w a = .ok out) : ∀ l ∈ out, Other l := by
  unfold start at h
  obtain ⟨t, _, h⟩ := except_bind_ok h
  cases h
  intro l hl
  rcases List.mem_append.1 hl with hl | hl
  · have : l = dbg "materialization start".toList ∨ l = dbg ("backend: ".toList ++ backendName R.L) ∨ l = dbg "materializing ndarray:".toList := by simpa using hl
    rcases this with rfl | rfl | rfl
    · exact ⟨by decide, by decide⟩
    · cases R.L <;> exact ⟨by decide, by decide⟩
    · exact ⟨by decide, by decide⟩
  · exact other_tree t l hl

theorem other_plans {num : V → Str} {w : World V} {t : Tbl} {fuel : Nat} : ∀ {ps : List ((Nat × Schedule) × Nat)} {r : List (List Str)}, ps.mapM (plan num w t fuel) = .ok r →
    ∀ l ∈ r.flatten, Other l := by
  intro ps
  induction ps with
  | nil => intro r h; cases h; intro l hl; cases hl
  | cons p ps ih =>
    intro r h
    rw [List.mapM_cons] at h
    obtain ⟨y, hy, h⟩ := except_bind_ok h
    obtain ⟨ys, hys, h⟩ := except_bind_ok h
    cases h
    intro l hl
    rw [List.flatten_cons] at hl
    rcases List.mem_append.1 hl with hl | hl
    · unfold plan at hy
      obtain ⟨T, _, hy⟩ := except_bind_ok hy
      cases hy
      rcases List.mem_cons.1 hl with rfl | hl
      · exact other_num _ _
      · rcases List.mem_append.1 hl with hl | hl
        · exact other_tree T l hl
        · exact other_schedule _ l hl
    · exact ih hys l hl

theorem _root_.Whale.Reports.nil : Reports [] [] 0 := ⟨fun _ h => (by cases h), rfl, rfl⟩

theorem _root_.Whale.Reports.append {o o' n n' : List Str} {k k' : Nat} (h : Reports o n k) (h' : Reports o' n' k') : Reports (o ++ o') (n ++ n') (k + k') := by
  refine ⟨fun c hc => ?_, ?_, ?_⟩
  · rcases List.mem_append.1 hc with hc | hc
    · obtain ⟨i, hi⟩ := h.source c hc; exact ⟨i, hi.trans (List.prefix_append _ _).isInfix⟩
    · obtain ⟨i, hi⟩ := h'.source c hc; exact ⟨i, hi.trans (List.suffix_append _ _).isInfix⟩
  · rw [List.count_append, List.length_append, h.compiled, h'.compiled]
  · rw [List.count_append, List.length_append]
    have := h.cached; have := h'.cached; omega

theorem _root_.Whale.Reports.other {o : List Str} (h : ∀ l ∈ o, Other l) : Reports o [] 0 :=
  ⟨fun _ h => (by cases h), List.count_eq_zero.2 fun hm => (h _ hm).1 rfl, by rw [List.count_eq_zero.2 fun hm => (h _ hm).2 rfl]; rfl⟩

theorem fillCpu_tick (A : Scalar V) (l : List Nat) : ∀ (w : World V), (l.foldl (fillCpu A) w).tick = w.tick := by
  induction l with
  | nil => intro w; rfl
  | cons i l ih => intro w; rw [List.foldl_cons, ih]; unfold fillCpu; split <;> rfl

theorem toDev_tick (b : Backend V) (l : List (Nat × Nat)) : ∀ (w w' : World V), l.foldlM (toDev b) w = .ok w' → w'.tick = w.tick := by
  induction l with
  | nil => intro w w' h; cases h; rfl
  | cons p l ih =>
    intro w w' h
    rw [List.foldlM_cons] at h
    obtain ⟨w1, h1, h⟩ := except_bind_ok h
    rw [ih _ _ h]
    unfold toDev at h1
    obtain ⟨w2, h2, h1⟩ := except_bind_ok h1
    cases h1
    have e2 : w2.tick = w.tick := by
      unfold alloc at h2
      split at h2
      · cases h2; rfl
      · split at h2
        · cases h2
        · cases h2; rfl
    rw [← e2]
    unfold htod
    split <;> (try split) <;> rfl

theorem invoke_texts {R : Runtime V} {s s' : SWorld V} {sch : Schedule} {text : Str} {out : Nat} {ins : List Nat} (h : Src.invoke R s sch text out ins = .ok s') :
    s'.texts = s.texts ∧ s'.w.tick = s.w.tick + 1 := by
  unfold Src.invoke at h
  split at h
  · cases h
  · split at h
    · obtain ⟨w, hw, h⟩ := except_bind_ok h
      have ht : w.tick = s.w.tick := by
        cases hf : (out :: ins).zipIdx.foldlM (toDev R.b) s.w with
        | error e => rw [hf] at hw; cases hw
        | ok w1 => rw [hf] at hw; cases hw; exact toDev_tick _ _ _ _ hf
      by_cases hl : Kern.launchOK sch = false
      · rw [if_pos hl] at h; cases h
      · rw [if_neg hl] at h
        split at h
        · obtain ⟨l, _, h⟩ := except_bind_ok h; cases h; exact ⟨rfl, by rw [ht]⟩
        · cases h
    · simp only at h
      split at h
      · obtain ⟨l, _, h⟩ := except_bind_ok h; cases h; exact ⟨rfl, by rw [fillCpu_tick]⟩
      · cases h

theorem runFunc_reports {R : Runtime V} {t : Tbl} {fuel : Nat} {st st' : SWorld V × List Str} {p : (Nat × Schedule) × Nat} (h : runFunc R t fuel st p = .ok st') :
    ∃ new more, st'.1.texts = st.1.texts ++ new ∧ st'.2 = st.2 ++ more ∧ st'.1.w.tick = st.1.w.tick + 1 ∧ Reports more (new.map (·.2)) 1 := by
  unfold runFunc at h
  simp only at h
  split at h
  · cases h
  · obtain ⟨outs, _, h⟩ := except_bind_ok h
    obtain ⟨key, _, h⟩ := except_bind_ok h
    split at h
    · obtain ⟨s', hi, h⟩ := except_bind_ok h
      cases h
      refine ⟨[], _, by rw [List.append_nil]; exact (invoke_texts hi).1, rfl, (invoke_texts hi).2, fun _ h => (by cases h), by decide, by decide⟩
    · obtain ⟨r, _, h⟩ := except_bind_ok h
      obtain ⟨s', hi, h⟩ := except_bind_ok h
      cases h
      refine ⟨[_], _, (invoke_texts hi).1, rfl, (invoke_texts hi).2, ?_⟩
      have hcnt : Other (dbg ("kernel invocation count: ".toList ++ intText s'.texts.length)) := by
        constructor <;> (intro e; have := congrArg (fun l => l[15]?) e; exact absurd this (by change ¬ (some 'i' = some 'c'); decide))
      have hrest : ∀ l ∈ dbg (intText (p.2 + 1) ++ ":".toList) :: (kernel r.1 ++ [dbg ("kernel invocation count: ".toList ++ intText s'.texts.length)]), Other l := by
        intro l hl
        rcases List.mem_cons.1 hl with rfl | hl
        · exact other_num _ _
        · rcases List.mem_append.1 hl with hl | hl
          · exact other_kernel _ l hl
          · rw [List.mem_singleton.1 hl]; exact hcnt
      have hr := Reports.other hrest
      refine ⟨?_, ?_, ?_⟩
      · intro c hc
        have : c = r.1 := by simpa using hc
        subst this
        exact ⟨p.2, [], [dbg ("kernel invocation count: ".toList ++ intText s'.texts.length)], by simp⟩
      · rw [List.count_cons_self, hr.compiled]; rfl
      · rw [List.count_cons_of_ne (by decide)]
        have := hr.cached
        simp only [List.length_nil] at this
        simp only [List.map_cons, List.map_nil, List.length_singleton]
        omega

theorem runFuncs_reports {R : Runtime V} {t : Tbl} {fuel : Nat} : ∀ {ps : List ((Nat × Schedule) × Nat)} {st st' : SWorld V × List Str}, ps.foldlM (runFunc R t fuel) st = .ok st' →
    ∃ new more, st'.1.texts = st.1.texts ++ new ∧ st'.2 = st.2 ++ more ∧ st'.1.w.tick = st.1.w.tick + ps.length ∧ Reports more (new.map (·.2)) ps.length := by
  intro ps
  induction ps with
  | nil => intro st st' h; cases h; exact ⟨[], [], by simp, by simp, rfl, .nil⟩
  | cons p ps ih =>
    intro st st' h
    rw [List.foldlM_cons] at h
    obtain ⟨s1, h1, h⟩ := except_bind_ok h
    obtain ⟨n1, m1, a1, b1, c1, r1⟩ := runFunc_reports h1
    obtain ⟨n2, m2, a2, b2, c2, r2⟩ := ih h
    refine ⟨n1 ++ n2, m1 ++ m2, by rw [a2, a1, List.append_assoc], by rw [b2, b1, List.append_assoc], by rw [c2, c1, List.length_cons]; omega, ?_⟩
    rw [List.map_append, List.length_cons, Nat.add_comm]
    exact r1.append r2

theorem materializeF_reports {R : Runtime V} {num : V → Str} : ∀ fuel {s : SWorld V} {a : Nat} {r : SWorld V × List Str}, materializeF R num fuel s a = .ok r →
    ∃ new, r.1.texts = s.texts ++ new ∧ s.w.tick ≤ r.1.w.tick ∧ Reports r.2 (new.map (·.2)) (r.1.w.tick - s.w.tick) := by
  intro fuel
  induction fuel with
  | zero => intro s a r h; cases h
  | succ fuel ih =>
    intro s a r h
    unfold materializeF at h
    obtain ⟨out, ho, h⟩ := except_bind_ok h
    have hout := other_start ho
    split at h
    · cases h
      refine ⟨[], by simp, Nat.le_refl _, ?_⟩
      rw [Nat.sub_self]
      refine .other fun l hl => ?_
      rcases List.mem_append.1 hl with hl | hl
      · exact hout l hl
      · rw [List.mem_singleton.1 hl]; exact ⟨by decide, by decide⟩
    · split at h
      · split at h
        · obtain ⟨r', hr', h⟩ := except_bind_ok h
          cases h
          obtain ⟨new, h1, h2, h3⟩ := ih hr'
          refine ⟨new, h1, h2, ?_⟩
          have : Reports (out ++ [dbg "as it's view op, materializing the source ndarray...".toList]) [] 0 := .other fun l hl => by
            rcases List.mem_append.1 hl with hl | hl
            · exact hout l hl
            · rw [List.mem_singleton.1 hl]; exact ⟨by decide, by decide⟩
          have := this.append h3
          simpa using this
        · cases h
      · obtain ⟨⟨funcs, t⟩, _, h⟩ := except_bind_ok h
        obtain ⟨scheds, _, h⟩ := except_bind_ok h
        obtain ⟨plans, hpl, h⟩ := except_bind_ok h
        obtain ⟨new, more, h1, h2, h3, h4⟩ := runFuncs_reports h
        refine ⟨new, h1, by rw [h3]; exact Nat.le_add_right _ _, ?_⟩
        have : Reports (out ++ (dbg (intText funcs.length ++ " funcs and schedules:".toList) :: plans.flatten)) [] 0 := .other fun l hl => by
          rcases List.mem_append.1 hl with hl | hl
          · exact hout l hl
          · rcases List.mem_cons.1 hl with rfl | hl
            · exact other_num _ _
            · exact other_plans hpl l hl
        have := this.append h4
        rw [h2, h3]
        simpa using this

theorem materializeF_start {R : Runtime V} {num : V → Str} {fuel : Nat} {s : SWorld V} {a : Nat} {r : SWorld V × List Str} (h : materializeF R num fuel s a = .ok r) :
    ∃ out, start R num s.w a = .ok out ∧ out <+: r.2 := by
  cases fuel with
  | zero => cases h
  | succ fuel =>
    unfold materializeF at h
    obtain ⟨out, ho, h⟩ := except_bind_ok h
    refine ⟨out, ho, ?_⟩
    split at h
    · cases h; exact List.prefix_append _ _
    · split at h
      · split at h
        · obtain ⟨r', hr', h⟩ := except_bind_ok h
          cases h; exact List.prefix_append _ _
        · cases h
      · obtain ⟨⟨funcs, t⟩, _, h⟩ := except_bind_ok h
        obtain ⟨scheds, _, h⟩ := except_bind_ok h
        obtain ⟨plans, hpl, h⟩ := except_bind_ok h
        obtain ⟨new, more, h1, h2, h3, h4⟩ := runFuncs_reports h
        rw [h2, List.append_assoc]
        exact List.prefix_append _ _

/-- The lines of a kernel are its source, but for a final line end. -/
theorem splitlines_join (r : Str) : ∀ cur, LangSpec.join ['\n'] (splitlinesFrom cur r) = cur ++ r ∨ LangSpec.join ['\n'] (splitlinesFrom cur r) ++ ['\n'] = cur ++ r := by
  induction r with
  | nil => intro cur; unfold splitlinesFrom; cases cur <;> exact .inl (by simp [LangSpec.join])
  | cons c r ih =>
    intro cur
    unfold splitlinesFrom
    by_cases hc : c = '\n'
    · subst hc
      rw [if_pos rfl]
      cases hr : splitlinesFrom [] r with
      | nil =>
        have := ih []
        rw [hr] at this
        rcases this with h | h
        · refine .inr ?_
          rw [← show r = [] by simpa [LangSpec.join] using h.symm]
          cases r <;> simp [LangSpec.join] at h ⊢
        · exfalso
          have : r = ['\n'] := by simpa [LangSpec.join] using h.symm
          subst this
          simp [splitlinesFrom] at hr
      | cons x xs =>
        have hj : LangSpec.join ['\n'] (cur :: x :: xs) = cur ++ '\n' :: LangSpec.join ['\n'] (x :: xs) := by simp [LangSpec.join]
        rw [hj, ← hr]
        rcases ih [] with h | h
        · exact .inl (by rw [h]; simp)
        · exact .inr (by rw [List.append_assoc, List.cons_append, h]; simp)
    · rw [if_neg hc]
      rcases ih (cur ++ [c]) with h | h
      · exact .inl (by rw [h]; simp)
      · exact .inr (by rw [h]; simp)

end Dbg
end Whale
