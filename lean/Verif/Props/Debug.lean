import Verif.Proofs.Debug
import Verif.Proofs.KeySize
import Verif.Props.Source
/-
C67: debug mode.
-/
namespace Whale.Props
open Whale Mat Hist
variable {V : Type}

/-- In every reachable state every array can be printed. -/
theorem str_total {R : Runtime V} (hR : R.OK) (hI : Sem.IntLaws R.L R.N) {s : SWorld V} (h : SReachable R s) (num : V → Str) : WF s.w.g ∧ ∀ i, i < s.w.g.length → ∃ l, str num s.w i = .ok l := by
  obtain ⟨b, hb, _, _, _, _, w, hr, hm⟩ := C64_session hR hI h
  have hsw : s.w = w.strip := hm.same
  rw [hsw]
  refine ⟨(hr.inv hb).winv.wf, fun i hi => ?_⟩
  show ∃ l, str num w i = .ok l
  cases hd : cpuBuf w (base w.g i) with
  | some data => obtain ⟨l, _, h2⟩ := str_host (hr.inv hb).winv hi hd num; exact ⟨_, h2⟩
  | none => exact ⟨_, by unfold str; rw [hd]; rfl⟩

/-- C67: whatever the program did before, a call has the same effect in debug mode and without: it returns the same and leaves the same state, or raises the same exception. -/
theorem C67_same {R : Runtime V} (hR : R.OK) (hI : Sem.IntLaws R.L R.N) {s : SWorld V} (h : SReachable R s) (num : V → Str) {c : Call V} (hok : Src.ArgsOK R s.w c) :
    (Dbg.step R num s c).map (·.1) = Src.step R s c := by
  by_cases hmat : ∃ a, c = .materialize a
  · obtain ⟨a, rfl⟩ := hmat
    obtain ⟨hwf, hstr⟩ := str_total hR hI h num
    unfold Dbg.step Src.step
    simp only [Call.arrays, List.mem_singleton, forall_eq]
    by_cases ha : a < s.w.g.length
    · rw [if_pos ha, if_pos ha]
      have hbl : base s.w.g a < s.w.g.length := Nat.lt_of_le_of_lt (base_le hwf ha) ha
      have hp : Dbg.Printable num s.w a := by
        refine ⟨hwf, ha, hstr, fun funcs t hc hcv => ?_⟩
        have hcc : s.w.g.ctx (base s.w.g a) ≠ .const := fun e => by rw [e] at hc; exact absurd hc (by decide)
        obtain ⟨funcs', t', e', _, _, _, hg, _⟩ := convert_good hwf hbl hok.1.1 (base_base hwf ha) hcc
        rw [hcv] at e'; cases e'
        exact fun f hf => Dbg.funcTree_ok (S := (· ∈ funcs)) (fun f hf => by obtain ⟨_, _, F, h1, _, h2⟩ := hg.entry f hf; exact ⟨F, h1, h2⟩) _ f
          (by have := (hg.entry f hf).1; omega) hf
      have := Dbg.materializeF_fst (R := R) (a + 1) a (by omega) hp
      unfold Src.exec1 Src.materialize
      simp only
      rw [← this]
      unfold Dbg.materialize
      cases Dbg.materializeF R num (a + 1) s a <;> rfl
    · rw [if_neg ha, if_neg ha]; rfl
  · have : Dbg.step R num s c = (Src.step R s c).map fun r => (r, []) := by
      cases c <;> first | rfl | exact absurd ⟨_, rfl⟩ hmat
    rw [this]
    cases Src.step R s c <;> rfl

/-- C67, the array: what `materialize` prints begins with three headings and a tree with one line for each visit of an array that the result is computed from, in the order of the operands,
indented by its distance, showing the text of that array (C61). -/
theorem C67_tree {R : Runtime V} (hR : R.OK) (hI : Sem.IntLaws R.L R.N) {s : SWorld V} (h : SReachable R s) {num : V → Str} {a : Nat} {r : Out V × SWorld V} {out : List Str}
    (hs : Dbg.step R num s (.materialize a) = .ok (r, out)) :
    ∃ lines rest, out = [Dbg.dbg "materialization start".toList, Dbg.dbg ("backend: ".toList ++ Dbg.backendName R.L), Dbg.dbg "materializing ndarray:".toList] ++ lines ++ rest ∧
      List.Forall₂ (Line num s.w) (visits s.w.g 0 a) lines := by
  obtain ⟨hwf, _⟩ := str_total hR hI h num
  unfold Dbg.step at hs
  simp only at hs
  split at hs
  swap
  · cases hs
  rename_i ha
  cases hm : Dbg.materialize R num s a with
  | error e => rw [hm] at hs; cases hs
  | ok r' =>
    rw [hm] at hs; cases hs
    obtain ⟨o, ho, rest, hp⟩ := Dbg.materializeF_start hm
    unfold Dbg.start at ho
    obtain ⟨T, hT, ho⟩ := except_bind_ok ho
    cases ho
    refine ⟨Dbg.tree T, rest, hp.symm, ?_⟩
    cases hat : Dbg.arrTree num s.w (a + 1) a with
    | error e => rw [hat] at hT; cases hT
    | ok T' =>
      rw [hat] at hT; cases hT
      exact Dbg.lines_visits hwf _ _ _ ha hat 0 "        ".toList true (by decide) (by decide)

/-- C67, the kernels: the sources printed are those compiled in this call, each in full after its heading; and each kernel run is announced either as compiled or as found in the cache. -/
theorem C67_kernels {R : Runtime V} {num : V → Str} {s s' : SWorld V} {a : Nat} {o : Out V} {out : List Str} (hs : Dbg.step R num s (.materialize a) = .ok ((o, s'), out)) :
    ∃ new, s'.texts = s.texts ++ new ∧ s.w.tick ≤ s'.w.tick ∧ Reports out (new.map (·.2)) (s'.w.tick - s.w.tick) := by
  unfold Dbg.step at hs
  simp only at hs
  split at hs
  swap
  · cases hs
  cases hm : Dbg.materialize R num s a with
  | error e => rw [hm] at hs; cases hs
  | ok r' => rw [hm] at hs; cases hs; exact Dbg.materializeF_reports _ hm

/-- The printed lines of a kernel, without the indentation, are the source, but for a line end at its end. -/
theorem C67_source (code : Str) : LangSpec.join ['\n'] ((Dbg.kernel code).map (·.drop 8)) = code ∨ LangSpec.join ['\n'] ((Dbg.kernel code).map (·.drop 8)) ++ ['\n'] = code := by
  have : (Dbg.kernel code).map (·.drop 8) = Dbg.splitlinesFrom [] code := by
    unfold Dbg.kernel
    rw [List.map_map]
    conv => rhs; rw [← List.map_id (Dbg.splitlinesFrom [] code)]
    exact List.map_congr_left fun l _ => by simp
  rw [this]
  exact Dbg.splitlines_join code []

theorem doubled_visits {w : World V} {n : Nat} (h : Doubled w n) : ∀ i, i ≤ n → ∀ d, (visits w.g d i).length + 1 = 2 ^ (i + 1)
  | 0, _, d => by rw [visits, h.zero]; rfl
  | i + 1, hi, d => by
    have := doubled_visits h i (by omega) (d + 1)
    rw [visits, h.succ i (by omega)]
    simp only [Ctx.inputs, List.flatMap_cons, List.flatMap_nil, List.append_nil, dif_pos (Nat.lt_succ_self i), List.length_cons, List.length_append]
    rw [Nat.pow_succ]; omega

theorem runAll_src {R : Runtime V} {cs : List (Call V)} (hok : ∀ c ∈ cs, (∀ a, c ≠ .materialize a) ∧ c ≠ .reset ∧ ∀ w, ArgsOK R.b w c) :
    ∀ {w w' : World V}, SReachable R ⟨w, []⟩ → runAll R.b w cs = .ok w' → SReachable R ⟨w', []⟩ := by
  induction cs with
  | nil => intro w w' h hr; cases hr; exact h
  | cons c cs ih =>
    intro w w' h hr
    unfold runAll at hr
    split at hr
    · rename_i o w1 hs
      obtain ⟨h1, h2, h3⟩ := hok c (by simp)
      refine ih (fun c hc => hok c (by simp [hc])) (.call h (c := c) (o := o) ⟨h3 _, fun a he => absurd he (h1 a)⟩ ?_) hr
      unfold step at hs
      unfold Src.step
      split at hs
      · rename_i hin
        rw [if_pos (by exact hin)]
        have : Src.exec1 R ⟨w, []⟩ c = (Src.lift (Hist.exec1 R.b w c)).map fun p => (p.1, (⟨p.2, []⟩ : SWorld V)) := by
          cases c <;> first | rfl | exact absurd rfl (h1 _) | exact absurd rfl h2
        rw [this, hs]; rfl
      · cases hs
    · cases hr

theorem runAll_congr {b b' : Backend V} {cs : List (Call V)} (h : ∀ c ∈ cs, ∀ w, step b w c = step b' w c) : ∀ w, runAll b w cs = runAll b' w cs := by
  induction cs with
  | nil => exact fun w => rfl
  | cons c cs ih =>
    intro w
    unfold runAll
    rw [h c (by simp)]
    cases step b' w c with
    | error e => rfl
    | ok p => exact ih (fun c hc => h c (by simp [hc])) _

/-- C67, how much is printed: `n` lines of program `x = x + x` make the tree of the array, printed before anything else happens, 2^(n+1) - 1 lines long. -/
theorem C67_exponential {R : Runtime V} (hR : R.OK) (hI : Sem.IntLaws R.L R.N) (num : V → Str) (u v : V) (n : Nat) :
    ∃ s, SReachable R s ∧ s.w.g.length = n + 1 ∧ runAll R.b Mat.init (doubling u v n) = .ok s.w ∧ ∃ out, Dbg.start R num s.w n = .ok out ∧ out.length = 2 ^ (n + 1) + 2 ∧
      ∀ r out', Dbg.step R num s (.materialize n) = .ok (r, out') → out <+: out' := by
  obtain ⟨run, hb⟩ := faithful_run R
  obtain ⟨w, e, _, hd⟩ := doubling_run hb u v n
  rw [runAll_congr fun c hc w => withRun_step0 (R := R) (run := run) w (c := c) ?_] at e
  swap
  · unfold doubling at hc
    rcases List.mem_cons.1 hc with rfl | hc
    · nofun
    · obtain ⟨i, _, rfl⟩ := List.mem_map.1 hc
      nofun
  have hr : SReachable R ⟨w, []⟩ := by
    refine runAll_src (cs := doubling u v n) (fun c hc => ?_) .refl e
    unfold doubling at hc
    rcases List.mem_cons.1 hc with rfl | hc
    · exact ⟨nofun, nofun, fun w => (show Rect _ from by simp [Rect, shapeOf, HasShape, HasShapeL])⟩
    · obtain ⟨i, _, rfl⟩ := List.mem_map.1 hc
      exact ⟨nofun, nofun, fun w => trivial⟩
  obtain ⟨hwf, hstr⟩ := str_total hR hI hr num
  obtain ⟨T, hT⟩ := Dbg.arrTree_ok hwf hstr (n + 1) n (by omega) (by show n < w.g.length; rw [hd.len]; omega)
  have hv := Dbg.lines_visits hwf _ _ _ (by show n < w.g.length; rw [hd.len]; omega) hT 0 "        ".toList true (by decide) (by decide)
  have hlen : (Dbg.tree T).length + 1 = 2 ^ (n + 1) := by
    rw [← doubled_visits hd n (Nat.le_refl _) 0]; exact congrArg (· + 1) hv.length_eq.symm
  refine ⟨⟨w, []⟩, hr, hd.len, e, _, by unfold Dbg.start; rw [lift_ok hT]; rfl, by simp; omega, fun r out' hs => ?_⟩
  unfold Dbg.step at hs
  simp only at hs
  split at hs
  swap
  · cases hs
  cases hm : Dbg.materialize R num ⟨w, []⟩ n with
  | error e => rw [hm] at hs; cases hs
  | ok r' =>
    rw [hm] at hs; cases hs
    obtain ⟨o, ho, hp⟩ := Dbg.materializeF_start hm
    unfold Dbg.start at ho
    rw [lift_ok hT] at ho
    cases ho
    exact hp

/-! ### example -/

/-- Printing the numbers of the example. -/
def pyText : Sem.Py Rat → Str
  | .int i => intText i
  | .flt q => intText q.num ++ ('/' :: intText q.den)

/-- What the last call of a program prints, on the Python backend. -/
def printed (cs : List (Call (Sem.Py Rat))) (a : Nat) : Option (List String) :=
  match srcRun pyRun (fun _ => true) Src.init cs with
  | some s => match Dbg.step pyRun pyText s (.materialize a) with
    | .ok r => some (r.2.map String.ofList)
    | .error _ => none
  | none => none

/-- The transposed of a product. -/
def dbgProg : List (Call (Sem.Py Rat)) := [.array (.node [.node [.leaf (.int 1), .leaf (.int 2)], .node [.leaf (.int 3), .leaf (.int 4)]]), .bin .mul 0 0, .T 1]

example : (∀ s, srcRun pyRun (fun _ => true) Src.init dbgProg = some s → SReachable pyRun s) ∧ printed dbgProg 2 = some
     ["[debug] materialization start",
      "[debug] backend: Python",
      "[debug] materializing ndarray:",
      "        Transpose shape=(2, 2) strides=(1, 2) offset=0 dtype=int64 cpu=None dev=None",
      "           └─ Mul shape=(2, 2) strides=(2, 1) offset=0 dtype=int64 cpu=None dev=None",
      "              ├─ [[1, 2], [3, 4]]",
      "              └─ [[1, 2], [3, 4]]",
      "[debug] as it's view op, materializing the source ndarray...",
      "[debug] materialization start",
      "[debug] backend: Python",
      "[debug] materializing ndarray:",
      "        Mul shape=(2, 2) strides=(2, 1) offset=0 dtype=int64 cpu=None dev=None",
      "           ├─ [[1, 2], [3, 4]]",
      "           └─ [[1, 2], [3, 4]]",
      "[debug] 1 funcs and schedules:",
      "[debug] 1:",
      "        Func(out_loops=[i:2, j:2] int64",
      "           └─ BinaryExpr(Mul)",
      "              ├─ BufferExpr(indices=[IndexExpr(i:2), IndexExpr(j:2)], cpu=[1, 2, ... 4] (len=4), dev=None)",
      "              └─ BufferExpr(indices=[IndexExpr(i:2), IndexExpr(j:2)], cpu=[1, 2, ... 4] (len=4), dev=None)",
      "        Schedule:",
      "          i:2 (Spatial:Parallel)",
      "          j:2 (Spatial:Vectorize)",
      "[debug] kernel codegen:",
      "[debug] 1:",
      "        import math",
      "        def kern_0a(out, buf_0):",
      "            for i in range(0, 2, 1):",
      "                for j in range(0, 2, 1):",
      "                    tmp0 = buf_0[0 + i * 2 + j * 1] * buf_0[0 + i * 2 + j * 1]",
      "                    out[i * 2 + j * 1] = tmp0",
      "                ",
      "            ",
      "[debug] kernel invocation count: 1"] := by
  refine ⟨fun s h => srcRun_runs pyRun_ok (pythonBackend_faithful _) (Sem.py_int _) (fun _ _ _ _ _ _ _ _ => pyRun_suits _ _) .refl h, by decide +kernel⟩

end Whale.Props
