import Verif.Spec.Nesting
import Verif.Proofs.KeySize
import Verif.Proofs.GenFits
import Verif.Proofs.KernelCpu
/-
C62: nesting of the generated statements.
-/
namespace Whale
open Mat Algo Codegen Hist Syntax
variable {V : Type}

/-! ### statement trees -/

def Stmt.loops : Stmt → Nat
  | .seq s t => max s.loops t.loops
  | .loop _ _ _ b => b.loops + 1
  | .ite _ t f => max t.loops f.loops
  | _ => 0

def Stmt.blocks : Stmt → Nat
  | .seq s t => max s.blocks t.blocks
  | .loop _ _ _ b => b.blocks + 1
  | .ite _ t f => max t.blocks f.blocks + 1
  | .guardRet _ => 1
  | _ => 0

theorem declare_loops (L : Lang) (dt : DType) (x : VName) (e : Ex) (k : Sx) : (Syntax.declare L dt x e k).loops = k.loops ∧ (Syntax.declare L dt x e k).blocks = k.blocks := by
  unfold Syntax.declare; split <;> exact ⟨rfl, rfl⟩

theorem Stmt.sx_loops (L : Lang) (s : Stmt) : ∀ k : Sx, (s.sx L k).loops = max s.loops k.loops ∧ (s.sx L k).blocks = max s.blocks k.blocks := by
  induction s with
  | skip => intro k; simp [Stmt.sx, Stmt.loops, Stmt.blocks]
  | seq s t ihs iht => intro k; simp only [Stmt.sx, Stmt.loops, Stmt.blocks, ihs, iht]; omega
  | initI x e => intro k; simp only [Stmt.sx, declare_loops, Stmt.loops, Stmt.blocks]; omega
  | initD dt x e => intro k; simp only [Stmt.sx, declare_loops, Stmt.loops, Stmt.blocks]; omega
  | set x e => intro k; simp [Stmt.sx, Stmt.loops, Stmt.blocks, Sx.loops, Sx.blocks]
  | store i e => intro k; simp [Stmt.sx, Stmt.loops, Stmt.blocks, Sx.loops, Sx.blocks]
  | loop m x n b ih => intro k; simp only [Stmt.sx, Stmt.loops, Stmt.blocks, Sx.loops, Sx.blocks, ih]; omega
  | ite c t f iht ihf => intro k; simp only [Stmt.sx, Stmt.loops, Stmt.blocks, Sx.loops, Sx.blocks, iht, ihf]; omega
  | guardRet c => intro k; simp [Stmt.sx, Stmt.loops, Stmt.blocks, Sx.loops, Sx.blocks]
  | gpuIdx x th d => intro k; simp only [Stmt.sx, declare_loops, Stmt.loops, Stmt.blocks]; omega

theorem genI_flat : ∀ {e : IExpr} {n : Nat} {s : Stmt} {a : KI} {n' : Nat}, genI e n = .ok (s, a, n') → s.loops = 0 ∧ s.blocks = 0
  | .index l, n, s, a, n', h => by cases h; exact ⟨rfl, rfl⟩
  | .const c, n, s, a, n', h => by cases h; exact ⟨rfl, rfl⟩
  | .bin op l r, n, s, a, n', h => by
    simp only [genI] at h
    split at h
    · obtain ⟨_, h, _⟩ := except_bind_ok h; cases h
    · obtain ⟨⟨s1, a1, n1⟩, h1, h⟩ := except_bind_ok h
      obtain ⟨⟨s2, a2, n2⟩, h2, h⟩ := except_bind_ok h
      cases h
      have i1 := genI_flat h1
      have i2 := genI_flat h2
      simp [Stmt.loops, Stmt.blocks, i1, i2]

theorem genIs_flat : ∀ {es : List IExpr} {n : Nat} {s : Stmt} {as : List KI} {n' : Nat}, genIs es n = .ok (s, as, n') → s.loops = 0 ∧ s.blocks = 0
  | [], n, s, a, n', h => by cases h; exact ⟨rfl, rfl⟩
  | e :: es, n, s, a, n', h => by
    simp only [genIs] at h
    obtain ⟨⟨s1, a1, n1⟩, h1, h⟩ := except_bind_ok h
    obtain ⟨⟨s2, a2, n2⟩, h2, h⟩ := except_bind_ok h
    cases h
    have i1 := genI_flat h1
    have i2 := genIs_flat h2
    simp [Stmt.loops, Stmt.blocks, i1, i2]

/-- Nested conditionals of an expression; a reference to another array counts as `W`. -/
def nest (W : Nat → Nat) : DExpr → Nat
  | .const _ => 0
  | .buf .. => 0
  | .un _ e => nest W e
  | .red _ e _ => nest W e
  | .bin _ l r => max (nest W l) (nest W r)
  | .tern _ _ t f => max (nest W t) (nest W f) + 1
  | .func f _ => W f

theorem redLoops_nest (rs : List LoopIndex) (s : Stmt) : (redLoops rs s).loops = s.loops + rs.length ∧ (redLoops rs s).blocks = s.blocks + rs.length := by
  induction rs with
  | nil => exact ⟨rfl, rfl⟩
  | cons l ls ih => simp only [redLoops, Stmt.loops, Stmt.blocks, ih, List.length_cons]; omega

/-- An expression with no reduction below the root. -/
theorem genD_nest {g : Graph V} {tbl : Tbl} {args : Args} {dt : DType} : ∀ {e : DExpr} {n : Nat} {s : Stmt} {a : KD} {n' : Nat},
    genD g tbl args dt e n = .ok (s, a, n') → hasReduce e = false → s.loops = 0 ∧ s.blocks = nest (fun _ => 0) e
  | .const c, n, s, a, n', h, _ => by cases h; exact ⟨rfl, rfl⟩
  | .un op e, n, s, a, n', h, hr => by
    simp only [genD] at h
    split at h
    · obtain ⟨_, h, _⟩ := except_bind_ok h; cases h
    · obtain ⟨⟨s1, a1, n1⟩, h1, h⟩ := except_bind_ok h
      cases h
      have i1 := genD_nest h1 hr
      simp [Stmt.loops, Stmt.blocks, i1, nest]
  | .bin op l r, n, s, a, n', h, hr => by
    simp only [hasReduce, Bool.or_eq_false_iff] at hr
    simp only [genD] at h
    split at h
    · obtain ⟨_, h, _⟩ := except_bind_ok h; cases h
    · obtain ⟨⟨s1, a1, n1⟩, h1, h⟩ := except_bind_ok h
      obtain ⟨⟨s2, a2, n2⟩, h2, h⟩ := except_bind_ok h
      cases h
      have i1 := genD_nest h1 hr.1
      have i2 := genD_nest h2 hr.2
      simp [Stmt.loops, Stmt.blocks, i1, i2, nest]
  | .tern op c t f, n, s, a, n', h, hr => by
    simp only [hasReduce, Bool.or_eq_false_iff] at hr
    simp only [genD] at h
    split at h
    · obtain ⟨_, h, _⟩ := except_bind_ok h; cases h
    · obtain ⟨⟨s0, a0, n0⟩, h0, h⟩ := except_bind_ok h
      obtain ⟨⟨s1, a1, n1⟩, h1, h⟩ := except_bind_ok h
      obtain ⟨⟨s2, a2, n2⟩, h2, h⟩ := except_bind_ok h
      cases h
      have i0 := genI_flat h0
      have i1 := genD_nest h1 hr.1
      have i2 := genD_nest h2 hr.2
      simp [Stmt.loops, Stmt.blocks, i0, i1, i2, nest]
  | .red op e rs, n, s, a, n', h, hr => by simp [hasReduce] at hr
  | .func f idx, n, s, a, n', h, _ => by
    simp only [genD] at h
    obtain ⟨_, _, h⟩ := except_bind_ok h
    obtain ⟨⟨s1, a1, n1⟩, h1, h⟩ := except_bind_ok h
    simp only at h
    split at h
    · cases h
    · cases h; exact genIs_flat h1
  | .buf b idx, n, s, a, n', h, _ => by
    simp only [genD] at h
    obtain ⟨_, _, h⟩ := except_bind_ok h
    obtain ⟨⟨s1, a1, n1⟩, h1, h⟩ := except_bind_ok h
    cases h; exact genIs_flat h1

theorem DWF.noRed {g : Graph V} {S : List LoopIndex} {l : Nat} {e : DExpr} (h : DWF g S l e) : hasReduce e = false := by
  induction e with
  | const => rfl
  | buf => rfl
  | func => rfl
  | un op e ih => exact ih h.2
  | red => exact h.elim
  | bin op l r ihl ihr => simp [hasReduce, ihl h.2.1, ihr h.2.2]
  | tern op c l r ihl ihr => simp [hasReduce, ihl h.2.2.1, ihr h.2.2.2]

theorem noRed_vars : ∀ {e : DExpr}, hasReduce e = false → reducedVars e = []
  | .const _, _ => rfl
  | .buf .., _ => rfl
  | .func .., _ => rfl
  | .un _ e, h => by simp only [reducedVars]; exact noRed_vars h
  | .red .., h => by simp [hasReduce] at h
  | .bin _ l r, h => by simp only [hasReduce, Bool.or_eq_false_iff] at h; simp [reducedVars, noRed_vars h.1, noRed_vars h.2]
  | .tern _ _ l r, h => by simp only [hasReduce, Bool.or_eq_false_iff] at h; simp [reducedVars, noRed_vars h.1, noRed_vars h.2]

theorem root_nest {g : Graph V} {i : Nat} {tbl : Tbl} {args : Args} {dt : DType} {e : DExpr} (hw : RootWF g i e) {n : Nat} {s : Stmt} {a : KD} {n' : Nat}
    (h : genD g tbl args dt e n = .ok (s, a, n')) : s.loops = (reducedVars e).length ∧ s.blocks = (reducedVars e).length + nest (fun _ => 0) e := by
  cases e with
  | red op b rs =>
    have hn : hasReduce b = false := hw.2.2.noRed
    simp only [genD] at h
    obtain ⟨⟨s1, a1, n1⟩, h1, h⟩ := except_bind_ok h
    split at h
    · obtain ⟨_, h, _⟩ := except_bind_ok h; cases h
    · cases h
      have i1 := genD_nest h1 hn
      simp [Stmt.loops, Stmt.blocks, redLoops_nest, i1, nest, reducedVars]
      omega
  | _ =>
    have hr := DWF.noRed (show DWF g (outLoops g i) i _ from hw)
    rw [noRed_vars hr]
    have := genD_nest h hr
    simp [this]

theorem genLoops_nest {ls rd : List LoopSched} {s : Stmt} (h1 : ∀ l ∈ ls, l.kind = .spatial ∧ cpuMode l.exec = true) (h2 : ∀ l ∈ rd, l.kind = .reduce) :
    (genLoops (ls ++ rd) s).loops = s.loops + ls.length ∧ (genLoops (ls ++ rd) s).blocks = s.blocks + ls.length := by
  induction ls with
  | nil =>
    simp only [List.nil_append, List.length_nil, Nat.add_zero]
    induction rd with
    | nil => exact ⟨rfl, rfl⟩
    | cons l rd ih =>
      have := h2 l (by simp)
      simp only [genLoops, this]
      exact ih (fun l hl => h2 l (List.mem_cons_of_mem _ hl))
  | cons l ls ih =>
    have hl := h1 l (by simp)
    have ih := ih (fun l hl => h1 l (List.mem_cons_of_mem _ hl))
    simp only [List.cons_append, genLoops, hl.1]
    have := hl.2
    cases he : l.exec <;> simp_all [cpuMode, Stmt.loops, Stmt.blocks] <;> omega

/-- The statements of a CPU kernel: the loops over the result, inside them the loops of the sum, inside them the conditionals. -/
theorem codegen_nest {g : Graph V} {tbl : Tbl} {i : Nat} {F : Func} (hE : EntryOK g i F) {sch : Schedule} (hs : Sched.schedule false F = .ok sch) {args : Args} {n n' : Nat} {K : Kernel}
    (h : Codegen.codegen g tbl F sch args n = .ok (K, n')) :
    K.body.loops = (g.shape i).length + (reducedVars F.expr).length ∧
    K.body.blocks = (g.shape i).length + (reducedVars F.expr).length + nest (fun _ => 0) F.expr := by
  obtain ⟨sch', sp, rd, e1, e2, e3, h1, h2, h3⟩ := cpu_loops (F := F)
  rw [Sched.schedule, if_neg (by simp), e1] at hs
  cases hs
  unfold Codegen.codegen at h
  obtain ⟨⟨s1, a1, n1⟩, hg, h⟩ := except_bind_ok h
  cases h
  have hr := root_nest hE.wf hg
  have hl : sp.length = (g.shape i).length := by
    have := congrArg List.length h3
    rw [List.length_map, List.length_map, hE.loops, outLoops_length] at this
    exact this
  simp only [e2, e3, splitInits, splitGuards]
  rw [(genLoops_nest h1 h2).1, (genLoops_nest h1 h2).2]
  simp only [Stmt.loops, Stmt.blocks, hr, hl]
  omega

/-! ### fusion -/

theorem replaceD_nest {W : Nat → Nat} {m : Repl} {e e' : DExpr} (h : replaceD m e = .ok e') : nest W e' = nest W e ∧ reducedVars e' = reducedVars e := by
  induction e generalizing e' with
  | const c => cases h; exact ⟨rfl, rfl⟩
  | un op e ih =>
    simp only [replaceD] at h
    obtain ⟨e1, h1, h⟩ := except_bind_ok h
    cases h; have := ih h1; simp [nest, reducedVars, this]
  | red op e rs ih =>
    simp only [replaceD] at h
    obtain ⟨e1, h1, h⟩ := except_bind_ok h
    cases h; have := ih h1; simp [nest, reducedVars, this]
  | bin op l r ihl ihr =>
    simp only [replaceD] at h
    obtain ⟨e1, h1, h⟩ := except_bind_ok h
    obtain ⟨e2, h2, h⟩ := except_bind_ok h
    cases h; have := ihl h1; have := ihr h2; simp [nest, reducedVars, *]
  | tern op c l r ihl ihr =>
    simp only [replaceD] at h
    obtain ⟨e0, h0, h⟩ := except_bind_ok h
    obtain ⟨e1, h1, h⟩ := except_bind_ok h
    obtain ⟨e2, h2, h⟩ := except_bind_ok h
    cases h; have := ihl h1; have := ihr h2; simp [nest, reducedVars, *]
  | func f idx =>
    simp only [replaceD] at h
    obtain ⟨e1, h1, h⟩ := except_bind_ok h
    cases h; exact ⟨rfl, rfl⟩
  | buf f idx =>
    simp only [replaceD] at h
    obtain ⟨e1, h1, h⟩ := except_bind_ok h
    cases h; exact ⟨rfl, rfl⟩

/-- Every function of the table has the conditionals (written out) and the reduced loops it had in the beginning. -/
def DepthOK (W : Nat → Nat) (R : Nat → List LoopIndex) (t : Tbl) : Prop := ∀ i F, t i = some F → nest W F.expr = W i ∧ reducedVars F.expr = R i

theorem fuseE_nest {W : Nat → Nat} {R : Nat → List LoopIndex} {visit : Nat → List IExpr → Tbl → Except Err (DExpr × Tbl)}
    (hv : ∀ f idx t e' t', visit f idx t = .ok (e', t') → DepthOK W R t → DepthOK W R t' ∧ nest W e' = W f ∧ reducedVars e' = []) :
    ∀ {e e' : DExpr} {t t' : Tbl}, fuseE visit e t = .ok (e', t') → DepthOK W R t → DepthOK W R t' ∧ nest W e' = nest W e ∧ reducedVars e' = reducedVars e
  | .const c, _, _, _, h, ht => by cases h; exact ⟨ht, rfl, rfl⟩
  | .buf n idx, _, _, _, h, ht => by cases h; exact ⟨ht, rfl, rfl⟩
  | .un op e, _, _, _, h, ht => by
    simp only [fuseE] at h
    obtain ⟨⟨e1, t1⟩, h1, h⟩ := except_bind_ok h
    cases h
    obtain ⟨i1, i2⟩ := fuseE_nest hv h1 ht
    exact ⟨i1, by simpa only [nest, reducedVars] using i2⟩
  | .red op e rs, _, _, _, h, ht => by
    simp only [fuseE] at h
    obtain ⟨⟨e1, t1⟩, h1, h⟩ := except_bind_ok h
    cases h
    obtain ⟨i1, i2⟩ := fuseE_nest hv h1 ht
    exact ⟨i1, by simp only [nest, i2], rfl⟩
  | .bin op l r, _, _, _, h, ht => by
    simp only [fuseE] at h
    obtain ⟨⟨e1, t1⟩, h1, h⟩ := except_bind_ok h
    obtain ⟨⟨e2, t2⟩, h2, h⟩ := except_bind_ok h
    cases h
    obtain ⟨i1, i2⟩ := fuseE_nest hv h1 ht
    obtain ⟨j1, j2⟩ := fuseE_nest hv h2 i1
    exact ⟨j1, by simp only [nest, i2, j2], by simp only [reducedVars, i2, j2]⟩
  | .tern op c l r, _, _, _, h, ht => by
    simp only [fuseE] at h
    obtain ⟨⟨e1, t1⟩, h1, h⟩ := except_bind_ok h
    obtain ⟨⟨e2, t2⟩, h2, h⟩ := except_bind_ok h
    cases h
    obtain ⟨i1, i2⟩ := fuseE_nest hv h1 ht
    obtain ⟨j1, j2⟩ := fuseE_nest hv h2 i1
    exact ⟨j1, by simp only [nest, i2, j2], by simp only [reducedVars, i2, j2]⟩
  | .func f idx, e', t, t', h, ht => hv f idx t e' t' h ht

theorem tryFuse_nest {W : Nat → Nat} {R : Nat → List LoopIndex} {rc : RC} (fuel : Nat) : ∀ {e e' : DExpr} {t t' : Tbl}, tryFuse rc fuel e t = .ok (e', t') → DepthOK W R t →
    DepthOK W R t' ∧ nest W e' = nest W e ∧ reducedVars e' = reducedVars e := by
  induction fuel with
  | zero => intro e e' t t' h; cases h
  | succ fuel ih =>
    intro e e' t t' h ht
    unfold tryFuse at h
    refine fuseE_nest ?_ h ht
    intro f idx t e' t' h ht
    cases hF : t f with
    | none => simp [hF] at h
    | some F =>
      simp only [hF] at h
      split at h
      · cases h
      · split at h
        · rename_i hcond
          obtain ⟨e1, h1, h⟩ := except_bind_ok h
          obtain ⟨i1, i2, i3⟩ := ih h ht
          have hnr : hasReduce F.expr = false := by
            rcases Bool.or_eq_true _ _ ▸ hcond with hb | hb
            · revert hb; cases F.expr <;> simp [isBufferExpr, hasReduce]
            · simp only [Bool.and_eq_true, Bool.not_eq_true'] at hb; exact hb.1
          refine ⟨i1, ?_, ?_⟩
          · rw [i2, (replaceD_nest (W := W) h1).1, (ht f F hF).1]
          · rw [i3, (replaceD_nest (W := W) h1).2, noRed_vars hnr]
        · obtain ⟨⟨e1, t1⟩, h1, h⟩ := except_bind_ok h
          cases h
          obtain ⟨i1, i2, i3⟩ := ih h1 ht
          refine ⟨?_, rfl, rfl⟩
          intro i G hG
          by_cases hif : i = f
          · subst hif
            rw [Tbl.set_same, Option.some.injEq] at hG
            subst hG
            exact ⟨by rw [i2]; exact (ht i F hF).1, by rw [i3]; exact (ht i F hF).2⟩
          · rw [Tbl.set_ne _ _ hif] at hG
            exact i1 i G hG

theorem condDepth_eq {g : Graph V} (h : WF g) {i : Nat} (hi : i < g.length) :
    condDepth g i = (match g.ctx i with | .pad .. | .dilate .. => 1 | _ => 0) + ((g.ctx i).inputs.map (condDepth g)).foldr max 0 := by
  rw [condDepth]
  congr 2
  apply List.map_congr_left
  intro x hx
  rw [dif_pos (h.inputs_lt hi x hx)]

/-- Conditionals and reduced loops of the expression of a single array. -/
theorem mkExpr_nest {g : Graph V} (hw : WF g) {a : Nat} (ha : a < g.length) {e : DExpr} (h : mkExpr g a = .ok e) :
    nest (condDepth g) e = condDepth g a ∧ (reducedVars e).length = summedAxes g a := by
  rw [condDepth_eq hw ha]
  have hctx := hw a ha
  unfold NodeOK at hctx
  unfold mkExpr at h
  unfold summedAxes
  cases hc : g.ctx a <;> simp only [show (g.nd a).ctx = g.ctx a from rfl, hc] at h hctx ⊢
  case const => cases h; exact ⟨rfl, rfl⟩
  case unary => cases h; simp [nest, Ctx.inputs, reducedVars]
  case binary => cases h; simp [nest, Ctx.inputs, reducedVars]
  case contiguous => cases h; simp [nest, Ctx.inputs, reducedVars]
  case sum x axis kd =>
    unfold reduceExpr at h
    obtain ⟨idx, h1, h⟩ := except_bind_ok h
    cases h
    simp only [nest, Ctx.inputs, reducedVars, List.map_cons, List.map_nil, List.foldr_cons, List.foldr_nil]
    refine ⟨by omega, ?_⟩
    have := congrArg List.length (reducedDict_spec (a := a) (s := g.shape x) (axis := axis) hctx.2.1).1
    rw [List.length_map] at this
    rw [List.length_map, this]
  case pad x dim b c =>
    unfold padExpr at h
    obtain ⟨_, _, h⟩ := except_bind_ok h
    obtain ⟨_, _, h⟩ := except_bind_ok h
    cases h; simp [nest, Ctx.inputs, reducedVars]; omega
  case dilate x dim st =>
    unfold dilateExpr at h
    obtain ⟨_, _, h⟩ := except_bind_ok h
    cases h; simp [nest, Ctx.inputs, reducedVars]; omega
  all_goals
    obtain ⟨idx, h1, h⟩ := except_bind_ok h
    cases h
    simp [nest, Ctx.inputs, reducedVars]

/-- After conversion every function has the conditionals (written out) and the reduced loops of its array. -/
theorem convert_nest {g : Graph V} (h : WF g) {a : Nat} (ha : a < g.length) (hns : NoScalarReshape g a)
    {funcs : List Nat} {t : Tbl} (hconv : convert g a = .ok (funcs, t)) : ∀ i F, t i = some F → nest (condDepth g) F.expr = condDepth g i ∧ (reducedVars F.expr).length = summedAxes g i := by
  obtain ⟨t1, e1, f1, _, s1, r1⟩ := arrToFunc_ok h (a + 2) a Tbl.empty (by omega) ha hns (Fresh.empty g)
  obtain ⟨F, hF⟩ := Option.isSome_iff_exists.1 s1
  let R : Nat → List LoopIndex := fun i => match t1 i with | some F => reducedVars F.expr | none => []
  have hR : ∀ i G, t1 i = some G → R i = reducedVars G.expr := fun i G hG => by simp only [R, hG]
  have hlen : ∀ i G, t1 i = some G → (reducedVars G.expr).length = summedAxes g i := by
    intro i G hG
    obtain ⟨hi, _, e, he, rfl⟩ := f1.entry i G hG
    exact (mkExpr_nest h hi he).2
  have hw1 : DepthOK (condDepth g) R t1 := by
    intro i G hG
    refine ⟨?_, (hR i G hG).symm⟩
    obtain ⟨hi, _, e, he, rfl⟩ := f1.entry i G hG
    exact (mkExpr_nest h hi he).1
  unfold convert at hconv
  simp only [e1, bind, Except.bind, hF] at hconv
  cases h2 : countRefs t1 (a + 2) F.expr (fun _ => 0) with
  | error x => simp [h2] at hconv
  | ok rc =>
    simp only [h2] at hconv
    cases h3 : tryFuse rc (a + 2) F.expr t1 with
    | error x => simp [h3] at hconv
    | ok p =>
      obtain ⟨e', t2⟩ := p
      simp only [h3] at hconv
      cases h4 : topo (t2.set a { outLoops := F.outLoops, outShape := F.outShape, outDtype := F.outDtype, expr := e', outBuffer := base g a }) (a + 2) a ([], []) with
      | error x => simp [h4] at hconv
      | ok q =>
        obtain ⟨sn, fs⟩ := q
        simp only [h4, pure, Except.pure, Except.ok.injEq, Prod.mk.injEq] at hconv
        obtain ⟨rfl, rfl⟩ := hconv
        have hEt : ∀ i G, t2 i = some G → (t1 i).isSome := by
          intro i G hG
          obtain ⟨e'', t2', e3', f3⟩ : ∃ e'' t2', tryFuse rc (a + 2) F.expr t1 = .ok (e'', t2') ∧ ∀ i, (t2' i).isSome → (t1 i).isSome := by
            have ht1 := f1.tblOK h
            have hE := ht1.entry a F hF
            obtain ⟨rc', e2, c2, p2⟩ := countRefs_ok ht1 (a + 2) F.expr a (fun _ => 0) (by omega)
              (fun f hf => ⟨hE.wf.refs_lt f hf, ht1.refs a F hF f hf⟩)
            rw [h2] at e2; cases e2
            obtain ⟨e'', t2', e3', f3⟩ := tryFuse_ok (rc := rc) (fuel := a + 1) (i := a) (by omega) hE.wf p2 ht1 (fun i hi => c2.new i rfl hi)
            exact ⟨e'', t2', e3', fun i hi => (f3.dom i).1 hi⟩
          rw [h3] at e3'; cases e3'
          exact f3 i (by rw [hG]; rfl)
        obtain ⟨w2, w3, w4⟩ := tryFuse_nest (W := condDepth g) (R := R) (a + 2) h3 hw1
        intro i G hG
        by_cases hia : i = a
        · subst hia
          rw [Tbl.set_same, Option.some.injEq] at hG
          subst hG
          simp only
          rw [w3, w4]
          exact ⟨(hw1 i F hF).1, hlen i F hF⟩
        · rw [Tbl.set_ne _ _ hia] at hG
          obtain ⟨G1, hG1⟩ := Option.isSome_iff_exists.1 (hEt i G hG)
          refine ⟨(w2 i G hG).1, ?_⟩
          rw [(w2 i G hG).2, hR i G1 hG1]
          exact hlen i G1 hG1

theorem nest_mono {W W' : Nat → Nat} (h : ∀ i, W i ≤ W' i) : ∀ e : DExpr, nest W e ≤ nest W' e
  | .const _ => Nat.le_refl _
  | .buf .. => Nat.le_refl _
  | .func f _ => h f
  | .un _ e => nest_mono h e
  | .red _ e _ => nest_mono h e
  | .bin _ l r => by have := nest_mono h l; have := nest_mono h r; simp only [nest]; omega
  | .tern _ _ l r => by have := nest_mono h l; have := nest_mono h r; simp only [nest]; omega

theorem nest_closed {W W' : Nat → Nat} : ∀ {e : DExpr}, funcRefs e = [] → nest W e = nest W' e
  | .const _, _ => rfl
  | .buf .., _ => rfl
  | .func f _, h => by simp [funcRefs] at h
  | .un _ e, h => nest_closed (e := e) h
  | .red _ e _, h => nest_closed (e := e) h
  | .bin _ l r, h => by simp only [funcRefs, List.append_eq_nil_iff] at h; simp only [nest, nest_closed (W := W) (W' := W') h.1, nest_closed (W := W) (W' := W') h.2]
  | .tern _ _ l r, h => by simp only [funcRefs, List.append_eq_nil_iff] at h; simp only [nest, nest_closed (W := W) (W' := W') h.1, nest_closed (W := W) (W' := W') h.2]

/-- `convert_one` for arrays whose formula may contain conditionals. -/
theorem convert_single {g : Graph V} (h : WF g) {a : Nat} (ha : a < g.length) (hns : NoScalarReshape g a) (hv : (g.ctx a).op.isView = false) (hc : g.ctx a ≠ .const)
    (hsum : ∀ i, Reach g a i → i ≠ a → ¬ Summed g i)
    (honce : ∀ x, g.ctx x ≠ .const → ∀ i j, Reach g a i → Reach g a j → x ∈ (g.ctx i).inputs → x ∈ (g.ctx j).inputs → i = j)
    (hsingle : ∀ x, g.ctx x ≠ .const → ∀ i, Reach g a i → (g.ctx i).inputs.count x ≤ 1) {funcs : List Nat} {t : Tbl} (hconv : convert g a = .ok (funcs, t)) :
    funcs = [a] ∧ ∃ F, t a = some F ∧ funcRefs F.expr = [] := by
  obtain ⟨h1, h2⟩ := convert_uses h ha hns hv hc hconv
  obtain ⟨_, _, _, _, _, _, hk⟩ := convert_kept h ha hns hc hconv
  obtain ⟨fs', t', ec, hnd, ⟨pre, hpre⟩, hord, hent⟩ := convert_ok h ha hns hv
  rw [hconv] at ec; cases ec
  have hall : ∀ f ∈ funcs, f = a := by
    intro f hf
    by_contra hfa
    rcases h1 f hf hfa with hs | ⟨arrays, hn, hr, hcnt⟩
    · exact hsum f (hent f hf).1 hfa hs
    · have hcf := (hk f hf).1
      have := count_flatMap_le_one (f := fun i => (g.ctx i).inputs) (x := f) hn
        (fun i hi j hj hx hy => honce f hcf i j (hr i hi) (hr j hj) hx hy) (fun i hi => hsingle f hcf i (hr i hi))
      omega
  have hfs : funcs = [a] := by
    subst hpre
    cases pre with
    | nil => rfl
    | cons y ys =>
      have := hall y (by simp)
      subst this
      simp at hnd
  refine ⟨hfs, ?_⟩
  obtain ⟨_, F, hF, hE, hd⟩ := hent a (by rw [hfs]; simp)
  refine ⟨F, hF, ?_⟩
  rw [List.eq_nil_iff_forall_not_mem]
  intro d hd'
  have := hord [] a [] (by rw [hfs]; rfl) F hF d hd'
  cases this

end Whale
