import Verif.Spec.Launch
import Verif.Proofs.Account
import Verif.Proofs.Refs
/-
The kernels of one `materialize` call: facts used by the properties C21-C24.
-/
namespace Whale
open Algo Mat Codegen Kern
variable {V : Type}

theorem launches_append (l m : List DevEvent) : launches (l ++ m) = launches l ++ launches m := by
  induction l with
  | nil => rfl
  | cons e l ih => cases e <;> simp [launches, ih]

theorem toDev_launches {b : Backend V} {w w' : World V} {p : Nat × Nat} (h : toDev b w p = .ok w') : launches w'.ev = launches w.ev := by
  unfold toDev at h
  obtain ⟨w1, h1, h2⟩ := except_bind_ok h
  cases h2
  have : launches w1.ev = launches w.ev := by
    unfold alloc at h1
    split at h1
    · cases h1; rfl
    · split at h1
      · cases h1
      · cases h1; simp [launches_append, launches]
  rw [← this]
  unfold htod
  split
  · split
    · simp [launches_append, launches]
    · rfl
  · rfl

theorem foldlM_toDev_launches {b : Backend V} {l : List (Nat × Nat)} {w w' : World V} (h : l.foldlM (toDev b) w = .ok w') : launches w'.ev = launches w.ev := by
  induction l generalizing w with
  | nil => cases h; rfl
  | cons p l ih =>
    rw [List.foldlM_cons] at h
    obtain ⟨w1, h1, h2⟩ := except_bind_ok h
    rw [ih h2, toDev_launches h1]

theorem invoke_launches {b : Backend V} (hg : b.isGpu = true) {w w' : World V} {sch : Schedule} {K : Kernel} {out : Nat} {ins : List Nat}
    (h : invoke b w sch K out ins = .ok w') : launches w'.ev = launches w.ev ++ [(out, ins)] := by
  unfold invoke at h
  simp only [hg, if_true, bind, Except.bind] at h
  split at h
  · cases h
  split at h
  · cases h
  split at h
  · cases h
  rename_i w1 h1
  have hf := foldlM_toDev_launches h1
  split at h
  · split at h
    · cases h; simp only; rw [launches_append, hf]; rfl
    · cases h
  · cases h

/-- The kernels `materialize` launches on a GPU. -/
theorem runFuncs_launches {b : Backend V} (hg : b.isGpu = true) {t : Tbl} {fuel : Nat} {ps : List (Nat × Schedule)} {w w' : World V}
    (h : ps.foldlM (runFunc b t fuel) w = .ok w')
    (ht : ∀ p ∈ ps, ∃ F, t p.1 = some F ∧ F.outBuffer = p.1 ∧ ∀ d ∈ (args F.expr).2, ∃ D, t d = some D ∧ D.outBuffer = d) :
    launches w'.ev = launches w.ev ++ ps.map fun p => (p.1, match t p.1 with | some F => (args F.expr).1 ++ (args F.expr).2 | none => []) := by
  induction ps generalizing w with
  | nil => cases h; simp
  | cons p ps ih =>
    rw [List.foldlM_cons] at h
    obtain ⟨w1, h1, h2⟩ := except_bind_ok h
    rw [ih h2 (fun q hq => ht q (by simp [hq]))]
    obtain ⟨F, hF, hob, hds⟩ := ht p (by simp)
    have houts : outBufs t (args F.expr).2 = .ok ((args F.expr).2.map id) := by
      apply mapM_ok
      intro d hd
      obtain ⟨D, hD, hDb⟩ := hds d hd
      simp only [hD, pure, Except.pure, hDb, id]
    rw [List.map_id] at houts
    have : launches w1.ev = launches w.ev ++ [(p.1, (args F.expr).1 ++ (args F.expr).2)] := by
      unfold runFunc at h1
      simp only [hF, houts, bind, Except.bind] at h1
      split at h1
      · cases h1
      · split at h1
        · rw [invoke_launches hg h1, hob]
        · split at h1
          · cases h1
          · split at h1
            · cases h1
            · rename_i hq
              cases h1
              rw [invoke_launches hg hq, hob]
    rw [this]
    simp [hF]

/-! ### arrays read by generated code -/

theorem reads_skip_seq (s t : Stmt) : (Stmt.seq s t).reads = s.reads ++ t.reads := rfl

theorem genI_reads {e : IExpr} {n n' : Nat} {s : Stmt} {k : KI} (h : genI e n = .ok (s, k, n')) : s.reads = [] := by
  induction e generalizing n n' s k with
  | index l => cases h; rfl
  | const c => cases h; rfl
  | bin op l r ihl ihr =>
    simp only [genI, bind, Except.bind] at h
    split at h
    · cases h
    · cases h1 : genI l n with
      | error x => simp [h1] at h
      | ok p =>
        simp only [h1] at h
        cases h2 : genI r p.2.2 with
        | error x => simp [h2] at h
        | ok q =>
          simp only [h2, pure, Except.pure, Except.ok.injEq, Prod.mk.injEq] at h
          obtain ⟨rfl, _, _⟩ := h
          simp [Stmt.reads, ihl h1, ihr h2]

theorem genIs_reads {es : List IExpr} {n n' : Nat} {s : Stmt} {ks : List KI} (h : genIs es n = .ok (s, ks, n')) : s.reads = [] := by
  induction es generalizing n n' s ks with
  | nil => cases h; rfl
  | cons e es ih =>
    simp only [genIs, bind, Except.bind] at h
    cases h1 : genI e n with
    | error x => simp [h1] at h
    | ok p =>
      simp only [h1] at h
      cases h2 : genIs es p.2.2 with
      | error x => simp [h2] at h
      | ok q =>
        simp only [h2, pure, Except.pure, Except.ok.injEq, Prod.mk.injEq] at h
        obtain ⟨rfl, _, _⟩ := h
        simp [Stmt.reads, genI_reads h1, ih h2]

theorem redLoops_reads (ls : List LoopIndex) (b : Stmt) : (redLoops ls b).reads = b.reads := by
  induction ls with
  | nil => rfl
  | cons l ls ih => simpa [redLoops, Stmt.reads] using ih

/-- The arrays a kernel is passed. -/
def IsArg (args : Args) (x : VName) : Prop := (∃ i < args.bufs.length, x = .arg false i) ∨ ∃ i < args.fncs.length, x = .arg true (args.bufs.length + i)

theorem bufName_isArg {args : Args} {n : Nat} {x : VName} (h : bufName args n = .ok x) : IsArg args x := by
  unfold bufName at h
  split at h
  · rename_i hm; cases h; exact Or.inl ⟨_, List.idxOf_lt_length_of_mem hm, rfl⟩
  · cases h

theorem fncName_isArg {args : Args} {n : Nat} {x : VName} (h : fncName args n = .ok x) : IsArg args x := by
  unfold fncName at h
  split at h
  · rename_i hm; cases h; exact Or.inr ⟨_, List.idxOf_lt_length_of_mem hm, rfl⟩
  · cases h

theorem genD_reads {g : Graph V} {tbl : Tbl} {args : Args} {dt : DType} {e : DExpr} {n n' : Nat} {s : Stmt} {k : KD}
    (h : genD g tbl args dt e n = .ok (s, k, n')) : (∀ x ∈ s.reads, IsArg args x) ∧ ∀ x ∈ k.reads, IsArg args x := by
  induction e generalizing n n' s k with
  | const c => cases h; exact ⟨by simp [Stmt.reads], by simp [KD.reads]⟩
  | un op e ih =>
    simp only [genD, bind, Except.bind] at h
    split at h
    · cases h
    · cases h1 : genD g tbl args dt e n with
      | error x => simp [h1] at h
      | ok p =>
        simp only [h1, pure, Except.pure, Except.ok.injEq, Prod.mk.injEq] at h
        obtain ⟨rfl, rfl, _⟩ := h
        obtain ⟨i1, i2⟩ := ih h1
        refine ⟨fun x hx => ?_, by simp [KD.reads]⟩
        simp only [Stmt.reads, KD.reads, List.mem_append] at hx
        exact hx.elim (i1 x) (i2 x)
  | bin op l r ihl ihr =>
    simp only [genD, bind, Except.bind] at h
    split at h
    · cases h
    · cases h1 : genD g tbl args dt l n with
      | error x => simp [h1] at h
      | ok p =>
        simp only [h1] at h
        cases h2 : genD g tbl args dt r p.2.2 with
        | error x => simp [h2] at h
        | ok q =>
          simp only [h2, pure, Except.pure, Except.ok.injEq, Prod.mk.injEq] at h
          obtain ⟨rfl, rfl, _⟩ := h
          obtain ⟨i1, i2⟩ := ihl h1
          obtain ⟨j1, j2⟩ := ihr h2
          refine ⟨fun x hx => ?_, by simp [KD.reads]⟩
          simp only [Stmt.reads, KD.reads, List.mem_append] at hx
          rcases hx with hx | hx | hx | hx
          · exact i1 x hx
          · exact j1 x hx
          · exact i2 x hx
          · exact j2 x hx
  | tern op c l r ihl ihr =>
    simp only [genD, bind, Except.bind] at h
    split at h
    · cases h
    · cases h0 : genI c (n + 1) with
      | error x => simp [h0] at h
      | ok o =>
        simp only [h0] at h
        cases h1 : genD g tbl args dt l o.2.2 with
        | error x => simp [h1] at h
        | ok p =>
          simp only [h1] at h
          cases h2 : genD g tbl args dt r p.2.2 with
          | error x => simp [h2] at h
          | ok q =>
            simp only [h2, pure, Except.pure, Except.ok.injEq, Prod.mk.injEq] at h
            obtain ⟨rfl, rfl, _⟩ := h
            obtain ⟨i1, i2⟩ := ihl h1
            obtain ⟨j1, j2⟩ := ihr h2
            refine ⟨fun x hx => ?_, by simp [KD.reads]⟩
            simp only [Stmt.reads, KD.reads, List.mem_append, genI_reads h0, List.not_mem_nil, false_or] at hx
            rcases hx with (hx | hx) | hx | hx
            · exact i1 x hx
            · exact i2 x hx
            · exact j1 x hx
            · exact j2 x hx
  | red op e rs ih =>
    simp only [genD, bind, Except.bind] at h
    cases h1 : genD g tbl args dt e n with
    | error x => simp [h1] at h
    | ok p =>
      simp only [h1] at h
      split at h
      · cases h
      · simp only [pure, Except.pure, Except.ok.injEq, Prod.mk.injEq] at h
        obtain ⟨rfl, rfl, _⟩ := h
        obtain ⟨i1, i2⟩ := ih h1
        refine ⟨fun x hx => ?_, by simp [KD.reads]⟩
        simp only [Stmt.reads, KD.reads, redLoops_reads, List.mem_append, List.not_mem_nil, false_or, List.nil_append] at hx
        exact hx.elim (i1 x) (i2 x)
  | func f idx =>
    simp only [genD, bind, Except.bind] at h
    cases h0 : fncName args f with
    | error x => simp [h0] at h
    | ok a =>
      simp only [h0] at h
      cases h1 : genIs idx n with
      | error x => simp [h1] at h
      | ok p =>
        simp only [h1] at h
        split at h
        · cases h
        · simp only [pure, Except.pure, Except.ok.injEq, Prod.mk.injEq] at h
          obtain ⟨rfl, rfl, _⟩ := h
          refine ⟨by simp [genIs_reads h1], fun x hx => ?_⟩
          simp only [KD.reads, List.mem_singleton] at hx
          subst hx; exact fncName_isArg h0
  | buf b idx =>
    simp only [genD, bind, Except.bind] at h
    cases h0 : bufName args b with
    | error x => simp [h0] at h
    | ok a =>
      simp only [h0] at h
      cases h1 : genIs idx n with
      | error x => simp [h1] at h
      | ok p =>
        simp only [h1, pure, Except.pure, Except.ok.injEq, Prod.mk.injEq] at h
        obtain ⟨rfl, rfl, _⟩ := h
        refine ⟨by simp [genIs_reads h1], fun x hx => ?_⟩
        simp only [KD.reads, List.mem_singleton] at hx
        subst hx; exact bufName_isArg h0

theorem genLoops_reads (ls : List LoopSched) (b : Stmt) : (genLoops ls b).reads = b.reads := by
  induction ls with
  | nil => rfl
  | cons l ls ih =>
    unfold genLoops
    split
    · exact ih
    · split <;> simp [Stmt.reads, ih]

theorem splitInits_reads (ls : List SplitLoop) : (splitInits ls).reads = [] := by
  induction ls with
  | nil => rfl
  | cons l ls ih => simp [splitInits, Stmt.reads, ih]

theorem splitGuards_reads (ls : List SplitLoop) : (splitGuards ls).reads = [] := by
  induction ls with
  | nil => rfl
  | cons l ls ih => unfold splitGuards; split <;> simp [Stmt.reads, ih]

theorem codegen_reads {g : Graph V} {t : Tbl} {F : Func} {sch : Schedule} {args : Args} {n n' : Nat} {K : Kernel}
    (h : codegen g t F sch args n = .ok (K, n')) : ∀ x ∈ K.body.reads, IsArg args x := by
  unfold codegen at h
  obtain ⟨p, h1, h2⟩ := except_bind_ok h
  obtain ⟨i1, i2⟩ := genD_reads (s := p.1) (k := p.2.1) (n' := p.2.2) h1
  simp only [pure, Except.pure, Except.ok.injEq, Prod.mk.injEq] at h2
  obtain ⟨rfl, _⟩ := h2
  intro x hx
  simp only [genLoops_reads, Stmt.reads, splitInits_reads, splitGuards_reads, List.nil_append, List.mem_append] at hx
  exact hx.elim (i1 x) (i2 x)

theorem isArg_params {g : Graph V} {t : Tbl} {args : Args} {dt : DType} {x : VName} (h : IsArg args x) : x ∈ (params g t args dt).tail.map (·.1) := by
  simp only [params, List.tail_cons, List.map_append, List.map_map, List.mem_append]
  have e1 : (args.bufs.zipIdx.map ((·.1) ∘ fun p => ((VName.arg false p.2, g.dtype p.1) : VName × DType))) = (List.range args.bufs.length).map (VName.arg false) := by
    rw [← zipIdx_map_snd args.bufs (VName.arg false)]; rfl
  have e2 : (args.fncs.zipIdx.map ((·.1) ∘ fun p => ((VName.arg true (args.bufs.length + p.2), ((t p.1).map (·.outDtype)).getD .int64) : VName × DType))) =
      (List.range args.fncs.length).map (fun i => VName.arg true (args.bufs.length + i)) := by
    rw [← zipIdx_map_snd args.fncs (fun i => VName.arg true (args.bufs.length + i))]; rfl
  rw [e1, e2]
  rcases h with ⟨i, hi, rfl⟩ | ⟨i, hi, rfl⟩
  · exact Or.inl (List.mem_map.2 ⟨i, List.mem_range.2 hi, rfl⟩)
  · exact Or.inr (List.mem_map.2 ⟨i, List.mem_range.2 hi, rfl⟩)

/-- What the correctness of one kernel needs, for every kernel of a `materialize` call. -/
theorem Generates.ready [Lim] {isGpu : Bool} {g : Graph V} (h : WF g) {a f : Nat} {ins : List Nat} {sch : Schedule} {K : Kernel} (ha : Computed g a)
    (hns : NoScalarReshape g a) (hG : Generates isGpu g a f ins sch K) (hS : Small g a := by exact small_none) :
    ∃ t F n n', Reach g a f ∧ f < g.length ∧ g.ctx f ≠ .const ∧ EntryOK g f F ∧ RefsOK g t F ∧ ins = (argsOf F).bufs ++ (argsOf F).fncs ∧ Sched.schedule isGpu F = .ok sch ∧
      codegen g t F sch (argsOf F) n = .ok (K, n') := by
  obtain ⟨ha, hv, hc⟩ := ha
  obtain ⟨funcs, t, F, n, n', e, hf, hF, hi, hs, hK⟩ := hG
  obtain ⟨funcs', t', e', hnd, hpre, hord, htg, hr⟩ := convert_good h ha hns hv hc hS
  rw [e] at e'; cases e'
  obtain ⟨_, hfc, F', hF', hE, hrefs⟩ := htg.entry f hf
  rw [hF] at hF'; cases hF'
  refine ⟨t, F, n, n', hr f hf, hE.lt, hfc, hE, ?_, hi, hs, hK⟩
  intro d hd
  obtain ⟨_, _, D, hD, hED, _⟩ := htg.entry d (hrefs d hd).1
  exact ⟨D, hD, hED.shape⟩

end Whale
