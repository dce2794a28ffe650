import Verif.Spec.Crash
import Verif.Proofs.Observe
/-
A CPU backend after interruptions: hiding the buffers of interrupted kernels gives a world that satisfies the invariant.
-/
namespace Whale
open Kern Codegen Mat Hist
variable {V : Type}

/-- The world without the buffers of the arrays in `D`. -/
def World.clean (D : List Nat) (w : World V) : World V := { w with cpu := fun i => if i ∈ D then none else w.cpu i }

/-- Every element of `l` is the one of `t` at the same place, or `z`. -/
def Partly (z : V) (t l : List V) : Prop := l.length = t.length ∧ ∀ (k : Nat) (x : V), l[k]? = some x → t[k]? = some x ∨ x = z

theorem Partly.refl (z : V) (t : List V) : Partly z t t := ⟨rfl, fun _ _ h => .inl h⟩

theorem partly_replicate (z : V) (t : List V) : Partly z t (List.replicate t.length z) := by
  refine ⟨by simp, fun k x h => .inr ?_⟩
  rw [List.getElem?_replicate] at h
  split at h
  · cases h; rfl
  · cases h

/-- Right writes. -/
theorem Partly.writes {z : V} {t l : List V} {ws : List (Int × V)} (hw : ∀ w ∈ ws, t[w.1.toNat]? = some w.2) (h : Partly z t l) : Partly z t (applyWrites l ws) := by
  unfold applyWrites
  induction ws generalizing l with
  | nil => exact h
  | cons w ws ih =>
    rw [List.foldl_cons]
    refine ih (fun x hx => hw x (by simp [hx])) ⟨by rw [List.length_set]; exact h.1, fun k x hx => ?_⟩
    rw [List.getElem?_set] at hx
    split at hx
    · rename_i he
      subst he
      split at hx
      · cases hx; exact .inl (hw w (by simp))
      · cases hx
    · exact h.2 k x hx

theorem writes_same {t : List V} {ws : List (Int × V)} (hw : ∀ w ∈ ws, t[w.1.toNat]? = some w.2) : applyWrites t ws = t := by
  unfold applyWrites
  induction ws with
  | nil => rfl
  | cons w ws ih =>
    rw [List.foldl_cons]
    have : t.set w.1.toNat w.2 = t := by
      apply List.ext_getElem?
      intro k
      rw [List.getElem?_set]
      split
      · rename_i he
        subst he
        have h1 := hw w (by simp)
        split
        · exact h1.symm
        · rename_i hl
          rw [List.getElem?_eq_none (by omega)]
      · rfl
    rw [this]
    exact ih (fun x hx => hw x (by simp [hx]))

theorem stores_right {A : Scalar V} {g : Graph V} {a : Nat} (hwf : WF g) (ha : a < g.length) : ∀ w ∈ storesOf A g a, ((den A g a).flatten)[w.1.toNat]? = some w.2 := by
  intro w hw
  have hsh : (den A g a).shape = g.shape a := den_shape A hwf ha
  simp only [storesOf, List.mem_map] at hw
  obtain ⟨idx, hi, rfl⟩ := hw
  have := flatten_getElem? (t := den A g a) (idx := idx) (by rw [hsh]; exact mem_indices.1 hi)
  rw [hsh] at this
  exact this

/-- The incomplete buffers contain right values and zeros, and there is no device memory. -/
structure DirtyOK (b : Backend V) (D : List Nat) (w : World V) : Prop where
  lt : ∀ i ∈ D, i < w.g.length
  nonconst : ∀ i ∈ D, w.g.ctx i ≠ .const
  part : ∀ i ∈ D, ∀ l, w.cpu i = some l → Partly (b.A.host 0) (den b.A w.g i).flatten l
  nodev : ∀ i, w.dev i = none

theorem clean_mem {D : List Nat} {w : World V} {i : Nat} (h : i ∈ D) : (w.clean D).cpu i = none := by simp [World.clean, h]
theorem clean_not {D : List Nat} {w : World V} {i : Nat} (h : i ∉ D) : (w.clean D).cpu i = w.cpu i := by simp [World.clean, h]

theorem cpuBuf_clean {D : List Nat} {w : World V} {i : Nat} (h : i ∉ D) : cpuBuf (w.clean D) i = cpuBuf w i := by
  unfold cpuBuf; rw [clean_not h]; rfl

theorem DirtyOK.notMem {b : Backend V} {D : List Nat} {w : World V} (hd : DirtyOK b D w) (hw : WF w.g) {i : Nat} (h : (cpuBuf (w.clean D) i).isSome) : i ∉ D := by
  intro hi
  unfold cpuBuf at h
  rw [clean_mem hi] at h
  have : (w.g.nd i).val = none := nonconst_val hw (hd.lt i hi) (hd.nonconst i hi)
  have e : ((w.clean D).g.nd i).val = none := this
  rw [e] at h; cases h

theorem DirtyOK.len {b : Backend V} {D : List Nat} {w : World V} (hd : DirtyOK b D w) (h : WInv b (w.clean D)) {i : Nat} (hi : i ∈ D) {l : List V} (hl : w.cpu i = some l) :
    (l.length : Int) = prod (w.g.shape i) := by
  rw [(hd.part i hi l hl).1]
  exact flatten_len h (i := i) (hd.lt i hi)

/-- Filling in the buffers of a kernel's parameters. -/
theorem fill_dirty {b : Backend V} {D : List Nat} {w : World V} (h : WInv b (w.clean D)) (hd : DirtyOK b D w) {out : Nat} {ins : List Nat}
    (ho : out < w.g.length) (hni : out ∉ ins) (hin : ∀ i ∈ ins, i < w.g.length ∧ (cpuBuf (w.clean D) i).isSome) :
    ∃ o cpu1, (∀ k, ((out :: ins).take k).foldl (fillCpu b.A) w = w ∨ ((out :: ins).take k).foldl (fillCpu b.A) w = { w with cpu := cpu1 }) ∧
      (out :: ins).foldl (fillCpu b.A) w = { w with cpu := cpu1 } ∧ cpuBuf { w with cpu := cpu1 } out = some o ∧ (∀ i, i ≠ out → cpu1 i = w.cpu i) ∧
      ((cpuBuf w out = some o ∧ cpu1 = w.cpu) ∨ (cpuBuf w out = none ∧ cpu1 out = some o ∧ o = List.replicate (den b.A w.g out).flatten.length (b.A.host 0))) ∧
      (o.length : Int) = prod (w.g.shape out) ∧ ∀ i ∈ ins, cpuBuf { w with cpu := cpu1 } i = some (den b.A w.g i).flatten := by
  have hwf : WF w.g := h.wf
  have hbl : bufLen w out = prod (w.g.shape out) := bufLen_eq hwf ho
  have hnn : NonNeg (w.g.shape out) := h.nn out ho
  have hfl : (((den b.A w.g out).flatten.length : Nat) : Int) = prod (w.g.shape out) := flatten_len h (i := out) ho
  have hlen : ∀ l, cpuBuf w out = some l → (l.length : Int) = prod (w.g.shape out) := by
    intro l hl
    by_cases hD : out ∈ D
    · unfold cpuBuf at hl
      rw [nonconst_val hwf ho (hd.nonconst out hD), Option.or_none] at hl
      exact hd.len h hD hl
    · rw [← cpuBuf_clean hD] at hl
      rw [cpuBuf_ok h (i := out) ho hl]
      exact hfl
  obtain ⟨o, cpu1, hcpu1, hw1, hol, hor⟩ : ∃ o cpu1, fillCpu b.A w out = { w with cpu := cpu1 } ∧
      (cpuBuf { w with cpu := cpu1 } out = some o ∧ ∀ i, i ≠ out → cpu1 i = w.cpu i) ∧ (o.length : Int) = prod (w.g.shape out) ∧
      ((cpuBuf w out = some o ∧ cpu1 = w.cpu) ∨ (cpuBuf w out = none ∧ cpu1 out = some o ∧ o = List.replicate (den b.A w.g out).flatten.length (b.A.host 0))) := by
    cases hb : cpuBuf w out with
    | some l => exact ⟨l, w.cpu, by simp [fillCpu, hb], ⟨hb, fun _ _ => rfl⟩, hlen l hb, .inl ⟨rfl, rfl⟩⟩
    | none =>
      have := hnn.prod_nonneg
      have hr : ((List.replicate (bufLen w out).toNat (b.A.host 0)).length : Int) = prod (w.g.shape out) := by rw [List.length_replicate, hbl]; omega
      refine ⟨List.replicate (bufLen w out).toNat (b.A.host 0), upd w.cpu out (List.replicate (bufLen w out).toNat (b.A.host 0)), by simp [fillCpu, hb],
        ⟨by simp [cpuBuf, upd_same], fun i hi => upd_ne _ _ hi⟩, hr, .inr ⟨rfl, upd_same _ _ _, ?_⟩⟩
      rw [hbl, ← hfl]; rfl
  have hin1 : ∀ i ∈ ins, cpuBuf { w with cpu := cpu1 } i = some (den b.A w.g i).flatten := by
    intro i hi
    obtain ⟨h1, h2⟩ := hin i hi
    have hD := hd.notMem hwf h2
    obtain ⟨l, hl⟩ := Option.isSome_iff_exists.1 h2
    have hne : i ≠ out := by rintro rfl; exact hni hi
    have e : l = (den b.A w.g i).flatten := cpuBuf_ok h (i := i) h1 hl
    rw [← e, ← hl, cpuBuf_clean hD]
    simp only [cpuBuf, hw1.2 i hne]
  refine ⟨o, cpu1, fun k => ?_, ?_, hw1.1, hw1.2, hor, hol, hin1⟩
  · cases k with
    | zero => exact .inl rfl
    | succ k =>
      right
      rw [List.take_succ_cons, List.foldl_cons, hcpu1]
      exact foldl_fillCpu (fun i hi => by rw [hin1 i (List.mem_of_mem_take hi)]; rfl)
  · rw [List.foldl_cons, hcpu1]
    exact foldl_fillCpu (fun i hi => by rw [hin1 i hi]; rfl)

/-- What running functions changes. -/
structure StepX (b : Backend V) (D : List Nat) (w : World V) (D' : List Nat) (w' : World V) : Prop where
  inv : WInv b (w'.clean D')
  dirty : DirtyOK b D' w'
  g : w'.g = w.g
  log : w'.log = w.log
  grad : w'.grad = w.grad
  mono : ∀ i, (w.cpu i).isSome → (w'.cpu i).isSome

theorem mem_without {D : List Nat} {x i : Nat} : i ∈ D.filter (· ≠ x) ↔ i ∈ D ∧ i ≠ x := by simp [List.mem_filter]

/-- A completed kernel run: its output is right afterwards, whatever was in the buffer. -/
theorem invoke_dirty {b : Backend V} {D : List Nat} {w : World V} (h : WInv b (w.clean D)) (hd : DirtyOK b D w) (hg : b.isGpu = false) {sch : Schedule} {K : Kernel} {out : Nat} {ins : List Nat}
    (ho : out < w.g.length) (hni : out ∉ ins) (hp : K.params.length = (out :: ins).length)
    (hin : ∀ i ∈ ins, i < w.g.length ∧ (cpuBuf (w.clean D) i).isSome)
    (hrun : ∀ o : List V, (o.length : Int) = prod (w.g.shape out) →
      ∃ ws, b.run w.tick (machine b K o (ins.map fun i => (den b.A w.g i).flatten)) sch K.body = some ws ∧ ws.Perm (storesOf b.A w.g out)) :
    ∃ w', invoke b w sch K out ins = .ok w' ∧ StepX b D w (D.filter (· ≠ out)) w' ∧ (w'.cpu out).isSome := by
  obtain ⟨o, cpu1, _, hfold, hb1, hoff, _, hol, hin1⟩ := fill_dirty h hd ho hni hin
  obtain ⟨ws, hws, hperm⟩ := hrun o hol
  have hnn : NonNeg (w.g.shape out) := h.nn out ho
  refine ⟨{ w with cpu := upd cpu1 out (applyWrites o ws), tick := w.tick + 1 }, ?_, ?_, by simp [upd_same]⟩
  · simp only [invoke, if_neg hni, if_neg (not_not.2 hp), hg, hfold, hb1, mapM_some hin1, hws, bind, Except.bind, pure, Except.pure]
    simp [hws]
  · have hout : applyWrites o ws = (den b.A w.g out).flatten := applyWrites_stores h.wf ho hnn hperm hol
    refine ⟨⟨h.wf, h.nn, ?_, h.dev, h.cache, h.ev.ok, h.ev.dev, fun i hi hs => ?_⟩, ⟨fun i hi => hd.lt i (mem_without.1 hi).1, fun i hi => hd.nonconst i (mem_without.1 hi).1, ?_, hd.nodev⟩, rfl, rfl, rfl, ?_⟩
    · intro i l hl
      by_cases hD : i ∈ D.filter (· ≠ out)
      · rw [clean_mem hD] at hl; cases hl
      · rw [clean_not hD] at hl
        simp only at hl
        by_cases hi : i = out
        · subst hi; rw [upd_same] at hl; cases hl; exact ⟨ho, hout⟩
        · rw [upd_ne _ _ hi, hoff i hi] at hl
          have hD' : i ∉ D := fun hD' => hD (mem_without.2 ⟨hD', hi⟩)
          exact h.cpu i l (by rw [clean_not hD']; exact hl)
    · have : (w.dev i).isSome := hs
      rw [hd.nodev i] at this; cases this
    · intro i hi l hl
      obtain ⟨h1, h2⟩ := mem_without.1 hi
      simp only at hl
      rw [upd_ne _ _ h2, hoff i h2] at hl
      exact hd.part i h1 l hl
    · intro i hi
      simp only
      by_cases he : i = out
      · subst he; rw [upd_same]; rfl
      · rw [upd_ne _ _ he, hoff i he]; exact hi

/-- An interrupted kernel run spoils at most its output, and that only if it had no data before. -/
theorem invokePart_dirty {b : Backend V} {D : List Nat} {w w' : World V} (h : WInv b (w.clean D)) (hd : DirtyOK b D w) (hg : b.isGpu = false) {sch : Schedule} {K : Kernel} {out : Nat} {ins : List Nat}
    (ho : out < w.g.length) (hc : w.g.ctx out ≠ .const) (hni : out ∉ ins) (hin : ∀ i ∈ ins, i < w.g.length ∧ (cpuBuf (w.clean D) i).isSome)
    (hrun : ∀ o : List V, (o.length : Int) = prod (w.g.shape out) →
      ∃ ws, b.run w.tick (machine b K o (ins.map fun i => (den b.A w.g i).flatten)) sch K.body = some ws ∧ ws.Perm (storesOf b.A w.g out))
    (hp : InvokePart b w sch K out ins w') : StepX b D w (spoiled w D (some out)) w' := by
  have hwf : WF w.g := h.wf
  obtain ⟨o, cpu1, htake, hfold, hb1, hoff, hor, hol, hin1⟩ := fill_dirty h hd ho hni hin
  have hcb : ∀ w2 : World V, w2.g = w.g → cpuBuf w2 out = w2.cpu out := by
    intro w2 e
    unfold cpuBuf
    rw [e, nonconst_val hwf ho hc, Option.or_none]
  have key : ∀ (cpu : Nat → Option (List V)) (n : Nat), (∀ i, i ≠ out → cpu i = w.cpu i) →
      (∀ l, cpu out = some l → out ∉ spoiled w D (some out) → l = (den b.A w.g out).flatten) →
      (∀ l, cpu out = some l → Partly (b.A.host 0) (den b.A w.g out).flatten l) →
      ((w.cpu out).isSome → (cpu out).isSome) → StepX b D w (spoiled w D (some out)) { w with cpu := cpu, tick := n } := by
    intro cpu n h1 h2 h4 h3
    have hsub : ∀ i, i ∈ spoiled w D (some out) → i = out ∨ i ∈ D := by
      intro i hi
      simp only [spoiled] at hi
      split at hi
      · exact .inr hi
      · exact List.mem_cons.1 hi
    have hsup : ∀ i, i ∈ D → i ∈ spoiled w D (some out) := by
      intro i hi
      simp only [spoiled]
      split
      · exact hi
      · exact List.mem_cons_of_mem _ hi
    refine ⟨⟨h.wf, h.nn, ?_, h.dev, h.cache, h.ev.ok, h.ev.dev, fun i hi hs => ?_⟩, ⟨?_, ?_, ?_, hd.nodev⟩, rfl, rfl, rfl, ?_⟩
    · intro i l hl
      by_cases hD : i ∈ spoiled w D (some out)
      · rw [clean_mem hD] at hl; cases hl
      · rw [clean_not hD] at hl
        simp only at hl
        by_cases he : i = out
        · subst he; exact ⟨ho, h2 l hl hD⟩
        · rw [h1 i he] at hl
          exact h.cpu i l (by rw [clean_not (fun hm => hD (hsup i hm))]; exact hl)
    · have : (w.dev i).isSome := hs
      rw [hd.nodev i] at this; cases this
    · intro i hi
      rcases hsub i hi with rfl | hi
      · exact ho
      · exact hd.lt i hi
    · intro i hi
      rcases hsub i hi with rfl | hi
      · exact hc
      · exact hd.nonconst i hi
    · intro i hi l hl
      simp only at hl
      by_cases he : i = out
      · subst he; exact h4 l hl
      · rw [h1 i he] at hl
        exact hd.part i ((hsub i hi).resolve_left he) l hl
    · intro i hs
      simp only
      by_cases he : i = out
      · subst he; exact h3 hs
      · rw [h1 i he]; exact hs
  -- the content before the kernel starts
  have hold : ∀ l, w.cpu out = some l → (out ∉ D → l = (den b.A w.g out).flatten) ∧ Partly (b.A.host 0) (den b.A w.g out).flatten l := by
    intro l hl
    have hx : out ∉ D → l = (den b.A w.g out).flatten := fun hD => (h.cpu out l (by rw [clean_not hD]; exact hl)).2
    refine ⟨hx, ?_⟩
    by_cases hD : out ∈ D
    · exact hd.part out hD l hl
    · rw [hx hD]; exact .refl _ _
  have hsp : out ∉ spoiled w D (some out) → out ∉ D ∧ (w.cpu out).isSome := by
    intro hn
    simp only [spoiled] at hn
    rw [hcb w rfl] at hn
    split at hn
    · rename_i hs; exact ⟨hn, hs⟩
    · exact absurd List.mem_cons_self hn
  have hstart : (out ∉ spoiled w D (some out) → o = (den b.A w.g out).flatten) ∧ Partly (b.A.host 0) (den b.A w.g out).flatten o ∧ ((w.cpu out).isSome → w.cpu out = some o) ∧
      ∀ l, cpu1 out = some l → l = o := by
    rcases hor with ⟨h1, h2⟩ | ⟨h1, h2, h3⟩
    · rw [hcb w rfl] at h1
      refine ⟨fun hn => (hold o h1).1 (hsp hn).1, (hold o h1).2, fun _ => h1, fun l hl => ?_⟩
      rw [h2, h1] at hl; cases hl; rfl
    · rw [hcb w rfl] at h1
      refine ⟨fun hn => ?_, ?_, fun hs => ?_, fun l hl => ?_⟩
      · have := (hsp hn).2; rw [h1] at this; cases this
      · rw [h3]; exact partly_replicate _ _
      · rw [h1] at hs; cases hs
      · rw [h2] at hl; cases hl; rfl
  cases hp with
  | filling k _ =>
    rcases htake k with e | e
    · rw [e]
      exact key w.cpu w.tick (fun _ _ => rfl) (fun l hl hn => (hold l hl).1 (hsp hn).1) (fun l hl => (hold l hl).2) id
    · rw [e]
      refine key cpu1 w.tick hoff (fun l hl hn => ?_) (fun l hl => ?_) (fun hs => ?_)
      · rw [hstart.2.2.2 l hl]; exact hstart.1 hn
      · rw [hstart.2.2.2 l hl]; exact hstart.2.1
      · rw [hcb { w with cpu := cpu1 } rfl] at hb1
        have e : cpu1 out = some o := hb1
        rw [e]; rfl
  | @running w1 o' is ws0 ws' _ e1 e2 e3 e4 e5 =>
    rw [hfold] at e1
    subst e1
    rw [hb1] at e2; cases e2
    rw [mapM_some hin1] at e3; cases e3
    obtain ⟨ws, hws, hperm⟩ := hrun o hol
    simp only at e4
    rw [hws] at e4; cases e4
    have hright : ∀ x ∈ ws', ((den b.A w.g out).flatten)[x.1.toNat]? = some x.2 := fun x hx =>
      stores_right hwf ho x (hperm.mem_iff.1 (e5.subset hx))
    refine key _ _ (fun i hi => ?_) (fun l hl hn => ?_) (fun l hl => ?_) (fun _ => by rw [upd_same]; rfl)
    · rw [upd_ne _ _ hi]; exact hoff i hi
    · rw [upd_same] at hl; cases hl
      rw [hstart.1 hn]; exact writes_same hright
    · rw [upd_same] at hl; cases hl
      exact hstart.2.1.writes hright
  | copying k hg' _ => rw [hg] at hg'; cases hg'
  | allocating k hg' _ _ _ => rw [hg] at hg'; cases hg'
  | launched hg' _ _ _ _ _ => rw [hg] at hg'; cases hg'

/-- What is known about one function of a conversion: its parameters, and what its kernel does. -/
structure FuncFacts (b : Backend V) (g : Graph V) (log : List (Key × Except Err (Kernel × Nat))) (t : Tbl) (fuel f : Nat) (F : Func) (sch : Schedule) (key : Key) (K0 : Kernel) (n0 : Nat) : Prop where
  hkey : cacheKey g t fuel F sch = .ok key
  outs : outBufs t (Algo.args F.expr).2 = .ok (Algo.args F.expr).2
  buffer : F.outBuffer = f
  lt : f < g.length
  nonconst : g.ctx f ≠ .const
  notIn : f ∉ (Algo.args F.expr).1 ++ (Algo.args F.expr).2
  log : (key, .ok (K0, n0)) ∈ log
  gen : ∀ n, codegen g t F sch ⟨(Algo.args F.expr).1, (Algo.args F.expr).2⟩ n = .ok (K0.shift n, n0 + n)
  bufs : ∀ i ∈ (Algo.args F.expr).1, i < g.length ∧ g.ctx i = .const
  fncs : ∀ i ∈ (Algo.args F.expr).2, i < g.length ∧ i ∈ Algo.funcRefs F.expr
  params : ∀ n, (K0.shift n).params.length = (f :: ((Algo.args F.expr).1 ++ (Algo.args F.expr).2)).length
  run : ∀ n tick, ∀ o : List V, (o.length : Int) = prod (g.shape f) →
    ∃ ws, b.run tick (machine b (K0.shift n) o (((Algo.args F.expr).1 ++ (Algo.args F.expr).2).map fun i => (den b.A g i).flatten)) sch (K0.shift n).body = some ws ∧ ws.Perm (storesOf b.A g f)

theorem func_facts {b : Backend V} (hb : Faithful b) {g : Graph V} (hwf : WF g) (hnn : ∀ i < g.length, NonNeg (g.shape i)) {t : Tbl} {a f : Nat} {S : Nat → Prop} (ht : TblGood g t a S) (hf : S f)
    {F : Func} (hF : t f = some F) {sch : Schedule} (hsch : Sched.schedule b.isGpu F = .ok sch) {log : List (Key × Except Err (Kernel × Nat))}
    (hlog : ∀ q, plan1 g t (a + 2) (f, sch) = some q → q ∈ log) :
    ∃ key K0 n0, FuncFacts b g log t (a + 2) f F sch key K0 n0 := by
  obtain ⟨hfa, hfc, F', hF', hE, hrefs⟩ := ht.entry f hf
  rw [hF] at hF'; cases hF'
  have hS : ∀ f, S f → ∃ F, t f = some F ∧ ∀ d ∈ Algo.funcRefs F.expr, S d ∧ d < f := fun f hf => by
    obtain ⟨_, _, F, h1, _, h2⟩ := ht.entry f hf; exact ⟨F, h1, h2⟩
  obtain ⟨key, hkey⟩ := cacheKey_ok (g := g) hS (fuel := a + 2) hf hF (by omega) sch
  have houts : outBufs t (Algo.args F.expr).2 = .ok ((Algo.args F.expr).2.map id) := by
    apply mapM_ok
    intro d hd
    obtain ⟨_, _, D, hD, hED, _⟩ := ht.entry d (hrefs d (mem_dedup.1 hd)).1
    simp only [hD, pure, Except.pure, hED.buffer, id]
  rw [List.map_id] at houts
  have hro : RefsOK g t F := by
    intro d hd
    obtain ⟨_, _, D, hD, hED, _⟩ := ht.entry d (hrefs d hd).1
    exact ⟨D, hD, hED.shape⟩
  obtain ⟨K0, n0, hK0⟩ : ∃ K n', codegen g t F sch (argsOf F) 0 = .ok (K, n') := by
    obtain ⟨s, k, n', hg, _⟩ := genRoot_gen (dt := F.outDtype) hE.wf (argsOK_of hro) 0
    exact ⟨_, n', by simp only [codegen, hg, bind, Except.bind, pure, Except.pure]; rfl⟩
  have hL := LvOK.schedule hsch
  have hgen : ∀ n, codegen g t F sch (argsOf F) n = .ok (K0.shift n, n0 + n) := by
    intro n
    have := codegen_shift (g := g) (t := t) (F := F) (sch := sch) hL (args := argsOf F) n 0
    rw [Nat.zero_add] at this
    rw [this, hK0]; rfl
  refine ⟨key, K0, n0, hkey, houts, hE.buffer, hE.lt, hfc, ?_, ?_, hgen, ?_, ?_, ?_, ?_⟩
  · intro hm
    rcases List.mem_append.1 hm with hm | hm
    · exact hfc (RootWF.bufs hE.wf f (mem_dedup.1 hm)).2.2
    · exact Nat.lt_irrefl _ (hrefs f (mem_dedup.1 hm)).2
  · have : (key, codegen g t F sch (argsOf F) 0) ∈ log := by
      apply hlog
      simp only [plan1, hF, hkey]; rfl
    rw [hK0] at this; exact this
  · intro i hi
    have := RootWF.bufs hE.wf i (mem_dedup.1 hi)
    exact ⟨this.1, this.2.2⟩
  · intro i hi
    have h2 := hrefs i (mem_dedup.1 hi)
    obtain ⟨_, _, D, hD, hED, _⟩ := ht.entry i h2.1
    exact ⟨hED.lt, mem_dedup.1 hi⟩
  · intro n
    rw [codegen_params (hgen n)]; simp [Codegen.params, argsOf]
  · intro n tick o ho
    obtain ⟨sch', K', n'', e1, e2, _, hall⟩ := kernel_any (b := b) (m := machine b (K0.shift n) o (((argsOf F).bufs ++ (argsOf F).fncs).map fun i => (den b.A g i).flatten))
      hwf hE hro (memOK_machine hwf hE (hgen n)) ho (hnn f hE.lt) n
    rw [hsch] at e1; cases e1
    rw [hgen n] at e2; cases e2
    exact hall _ (hb _ _ _ _)

/-- One function, completely run. -/
theorem runFunc_dirty {b : Backend V} (hb : Faithful b) (hg : b.isGpu = false) {D : List Nat} {w : World V} (h : WInv b (w.clean D)) (hd : DirtyOK b D w) {t : Tbl} {a f : Nat} {S : Nat → Prop}
    (ht : TblGood w.g t a S) (hf : S f) {F : Func} (hF : t f = some F) {sch : Schedule} (hsch : Sched.schedule b.isGpu F = .ok sch)
    (hav : ∀ d ∈ Algo.funcRefs F.expr, (cpuBuf (w.clean D) d).isSome) (hnc : NoCollision w.log)
    (hlog : ∀ q, plan1 w.g t (a + 2) (f, sch) = some q → q ∈ w.log) :
    ∃ w', runFunc b t (a + 2) w (f, sch) = .ok w' ∧ StepX b D w (D.filter (· ≠ f)) w' ∧ (w'.cpu f).isSome := by
  obtain ⟨key, K0, n0, X⟩ := func_facts (g := w.g) hb h.wf h.nn ht hf hF hsch hlog
  have hin : ∀ i ∈ (Algo.args F.expr).1 ++ (Algo.args F.expr).2, i < w.g.length ∧ (cpuBuf (w.clean D) i).isSome := by
    intro i hi
    rcases List.mem_append.1 hi with hi | hi
    · exact ⟨(X.bufs i hi).1, avail_const (b := b) (w := w.clean D) h.wf (X.bufs i hi).1 (X.bufs i hi).2⟩
    · exact ⟨(X.fncs i hi).1, hav i (X.fncs i hi).2⟩
  unfold runFunc
  simp only [hF, X.outs, X.hkey, bind, Except.bind]
  rw [X.buffer]
  cases hc : w.cache.lookup key with
  | some K =>
    obtain ⟨K1, n1, n, hm, rfl⟩ := h.cache key K (mem_of_lookup hc)
    have heq := hnc _ hm _ X.log rfl
    simp only [Except.ok.injEq, Prod.mk.injEq] at heq
    obtain ⟨rfl, rfl⟩ := heq
    have hw1 : WInv b (({ w with hits := fun k => if k = key then w.hits k + 1 else w.hits k } : World V).clean D) := ⟨h.wf, h.nn, h.cpu, h.dev, h.cache, h.ev⟩
    obtain ⟨w', e, hr, ha⟩ := invoke_dirty hw1 ⟨hd.lt, hd.nonconst, hd.part, hd.nodev⟩ hg (sch := sch) (K := K1.shift n) X.lt X.notIn (X.params n) hin (X.run n _)
    exact ⟨w', e, ⟨hr.inv, hr.dirty, hr.g, hr.log, hr.grad, hr.mono⟩, ha⟩
  | none =>
    simp only [X.gen w.tmp, pure, Except.pure]
    have hw1 : WInv b (({ w with tmp := n0 + w.tmp, cache := w.cache ++ [(key, K0.shift w.tmp)], hits := fun k => if k = key then 0 else w.hits k } : World V).clean D) := by
      refine ⟨h.wf, h.nn, h.cpu, h.dev, ?_, h.ev⟩
      intro k K hm
      rcases List.mem_append.1 hm with hm | hm
      · exact h.cache k K hm
      · simp only [List.mem_singleton, Prod.mk.injEq] at hm
        obtain ⟨rfl, rfl⟩ := hm
        exact ⟨K0, n0, w.tmp, X.log, rfl⟩
    obtain ⟨w', e, hr, ha⟩ := invoke_dirty hw1 ⟨hd.lt, hd.nonconst, hd.part, hd.nodev⟩ hg (sch := sch) (K := K0.shift w.tmp) X.lt X.notIn (X.params _) hin (X.run _ _)
    rw [e]
    exact ⟨_, rfl, ⟨⟨hr.inv.wf, hr.inv.nn, hr.inv.cpu, hr.inv.dev, hr.inv.cache, hr.inv.ev⟩, ⟨hr.dirty.lt, hr.dirty.nonconst, hr.dirty.part, hr.dirty.nodev⟩, hr.g, hr.log, hr.grad, hr.mono⟩, ha⟩

/-- One function, interrupted. -/
theorem runPart_dirty {b : Backend V} (hb : Faithful b) (hg : b.isGpu = false) {D : List Nat} {w w' : World V} (h : WInv b (w.clean D)) (hd : DirtyOK b D w) {t : Tbl} {a f : Nat} {S : Nat → Prop}
    (ht : TblGood w.g t a S) (hf : S f) {F : Func} (hF : t f = some F) {sch : Schedule} (hsch : Sched.schedule b.isGpu F = .ok sch)
    (hav : ∀ d ∈ Algo.funcRefs F.expr, (cpuBuf (w.clean D) d).isSome) (hnc : NoCollision w.log)
    (hlog : ∀ q, plan1 w.g t (a + 2) (f, sch) = some q → q ∈ w.log) {d : Option Nat} (hp : RunPart b t (a + 2) w (f, sch) d w') :
    StepX b D w (spoiled w D d) w' ∧ ∀ x ∈ d, x = f := by
  obtain ⟨key, K0, n0, X⟩ := func_facts (g := w.g) hb h.wf h.nn ht hf hF hsch hlog
  have hin : ∀ i ∈ (Algo.args F.expr).1 ++ (Algo.args F.expr).2, i < w.g.length ∧ (cpuBuf (w.clean D) i).isSome := by
    intro i hi
    rcases List.mem_append.1 hi with hi | hi
    · exact ⟨(X.bufs i hi).1, avail_const (b := b) (w := w.clean D) h.wf (X.bufs i hi).1 (X.bufs i hi).2⟩
    · exact ⟨(X.fncs i hi).1, hav i (X.fncs i hi).2⟩
  cases hp with
  | before n =>
    exact ⟨⟨⟨h.wf, h.nn, h.cpu, h.dev, h.cache, h.ev⟩, ⟨hd.lt, hd.nonconst, hd.part, hd.nodev⟩, rfl, rfl, rfl, fun _ h => h⟩, by simp⟩
  | @hit F' outs' key' K w' hF' ho hk hl hi =>
    simp only [hF, Option.some.injEq] at hF'
    subst hF'
    rw [X.outs] at ho; cases ho
    rw [X.hkey] at hk; cases hk
    obtain ⟨K1, n1, n, hm, hKe⟩ := h.cache key K (mem_of_lookup hl)
    have heq := hnc _ hm _ X.log rfl
    simp only [Except.ok.injEq, Prod.mk.injEq] at heq
    have hK : K0.shift n = K := by rw [hKe, heq.1]
    have hw1 : WInv b (({ w with hits := fun k => if k = key then w.hits k + 1 else w.hits k } : World V).clean D) := ⟨h.wf, h.nn, h.cpu, h.dev, h.cache, h.ev⟩
    rw [X.buffer] at hi ⊢
    have hr := invokePart_dirty hw1 ⟨hd.lt, hd.nonconst, hd.part, hd.nodev⟩ hg X.lt X.nonconst X.notIn hin (hK ▸ X.run n _) hi
    exact ⟨⟨hr.inv, hr.dirty, hr.g, hr.log, hr.grad, hr.mono⟩, by simp⟩
  | miss hF' ho hk hl hc hi =>
    simp only [hF, Option.some.injEq] at hF'
    subst hF'
    rw [X.outs] at ho; cases ho
    rw [X.hkey] at hk; cases hk
    rw [X.gen w.tmp] at hc; cases hc
    have hw1 : WInv b (({ w with tmp := n0 + w.tmp, cache := w.cache ++ [(key, K0.shift w.tmp)], hits := fun k => if k = key then 0 else w.hits k } : World V).clean D) := by
      refine ⟨h.wf, h.nn, h.cpu, h.dev, ?_, h.ev⟩
      intro k K hm
      rcases List.mem_append.1 hm with hm | hm
      · exact h.cache k K hm
      · simp only [List.mem_singleton, Prod.mk.injEq] at hm
        obtain ⟨rfl, rfl⟩ := hm
        exact ⟨K0, n0, w.tmp, X.log, rfl⟩
    rw [X.buffer] at hi ⊢
    have hr := invokePart_dirty hw1 ⟨hd.lt, hd.nonconst, hd.part, hd.nodev⟩ hg X.lt X.nonconst X.notIn hin (X.run _ _) hi
    exact ⟨⟨hr.inv, hr.dirty, hr.g, hr.log, hr.grad, hr.mono⟩, by simp⟩

theorem cpuBuf_monoX {b : Backend V} {D D' : List Nat} {w w' : World V} (s : StepX b D w D' w') (hd : DirtyOK b D w) (hw : WF w.g) {i : Nat} (hi : i ∉ D') (h : (cpuBuf (w.clean D) i).isSome) :
    (cpuBuf (w'.clean D') i).isSome := by
  have hD := hd.notMem hw h
  rw [cpuBuf_clean hi]
  rw [cpuBuf_clean hD] at h
  unfold cpuBuf at *
  rw [s.g]
  cases hc : w.cpu i with
  | some l =>
    obtain ⟨l', hl'⟩ := Option.isSome_iff_exists.1 (s.mono i (by rw [hc]; rfl))
    rw [hl']; rfl
  | none =>
    rw [hc, Option.none_or] at h
    cases w'.cpu i with
    | some l => rfl
    | none => exact h

/-- Several functions, completely run. -/
theorem runFuncs_dirty {b : Backend V} (hb : Faithful b) (hg : b.isGpu = false) {t : Tbl} {a : Nat} {g : Graph V} {S : Nat → Prop} (ht : TblGood g t a S) :
    ∀ (ps : List (Nat × Schedule)) (done rest D : List Nat) (w : World V), WInv b (w.clean D) → DirtyOK b D w → w.g = g → NoCollision w.log →
    (∀ p ∈ ps, S p.1 ∧ ∃ F, t p.1 = some F ∧ Sched.schedule b.isGpu F = .ok p.2) →
    (∀ p ∈ ps, ∀ q, plan1 g t (a + 2) p = some q → q ∈ w.log) →
    Ordered t (done ++ ps.map (·.1) ++ rest) → (∀ d ∈ done, (cpuBuf (w.clean D) d).isSome) →
    ∃ w' D', ps.foldlM (runFunc b t (a + 2)) w = .ok w' ∧ StepX b D w D' w' ∧ (∀ i, i ∈ D' → i ∈ D) ∧ (∀ p ∈ ps, p.1 ∉ D') ∧
      (∀ d ∈ done ++ ps.map (·.1), (cpuBuf (w'.clean D') d).isSome) := by
  intro ps
  induction ps with
  | nil =>
    intro done rest D w h hd _ _ _ _ _ hdn
    exact ⟨w, D, rfl, ⟨h, hd, rfl, rfl, rfl, fun _ h => h⟩, fun _ h => h, by simp, by simpa using hdn⟩
  | cons p ps ih =>
    intro done rest D w h hd hgr hnc hp hlog ho hdn
    obtain ⟨hS, F, hF, hs⟩ := hp p (by simp)
    subst hgr
    obtain ⟨w1, e1, s1, a1⟩ := runFunc_dirty hb hg h hd ht hS hF hs
      (fun d hd' => hdn d (ho done p.1 (ps.map (·.1) ++ rest) (by simp) F hF d hd')) hnc (fun q hq => hlog p (by simp) q hq)
    have hpD : p.1 ∉ D.filter (· ≠ p.1) := fun hm => (mem_without.1 hm).2 rfl
    obtain ⟨w2, D2, e2, s2, sub2, n2, a2⟩ := ih (done ++ [p.1]) rest (D.filter (· ≠ p.1)) w1 s1.inv s1.dirty s1.g (by rw [s1.log]; exact hnc) (fun q hq => hp q (by simp [hq]))
      (fun q hq r hr => by rw [s1.log]; exact hlog q (by simp [hq]) r hr)
      (by simpa using ho) (by
        intro d hd'
        rcases List.mem_append.1 hd' with hd' | hd'
        · have h1 := hdn d hd'
          exact cpuBuf_monoX s1 hd h.wf (fun hm => hd.notMem h.wf h1 (mem_without.1 hm).1) h1
        · simp only [List.mem_singleton] at hd'
          rw [hd', cpuBuf_clean hpD]
          unfold cpuBuf
          obtain ⟨l, hl⟩ := Option.isSome_iff_exists.1 a1
          rw [hl]; rfl)
    refine ⟨w2, D2, ?_, ⟨s2.inv, s2.dirty, s2.g.trans s1.g, s2.log.trans s1.log, s2.grad.trans s1.grad, ?_⟩, ?_, ?_, ?_⟩
    · rw [List.foldlM_cons, e1]; exact e2
    · exact fun i hs => s2.mono i (s1.mono i hs)
    · intro i hi; exact (mem_without.1 (sub2 i hi)).1
    · intro q hq
      rcases List.mem_cons.1 hq with rfl | hq
      · exact fun hm => hpD (sub2 _ hm)
      · exact n2 q hq
    · simpa using a2

/-- Hiding more buffers. -/
theorem WInv.mask {b : Backend V} {D D' : List Nat} {w : World V} (h : WInv b (w.clean D)) (hd : ∀ i, w.dev i = none) (hs : ∀ i, i ∈ D → i ∈ D') : WInv b (w.clean D') := by
  refine ⟨h.wf, h.nn, ?_, h.dev, h.cache, h.ev.ok, h.ev.dev, fun i hi hsome => ?_⟩
  · intro i l hl
    by_cases hm : i ∈ D'
    · rw [clean_mem hm] at hl; cases hl
    · rw [clean_not hm] at hl
      exact h.cpu i l (by rw [clean_not (fun hx => hm (hs i hx))]; exact hl)
  · have : (w.dev i).isSome := hsome
    rw [hd i] at this; cases this

theorem DirtyOK.mask {b : Backend V} {D D' : List Nat} {w : World V} (h : WInv b (w.clean D)) (hd : DirtyOK b D w) (hl : ∀ i ∈ D', i < w.g.length) (hc : ∀ i ∈ D', w.g.ctx i ≠ .const) : DirtyOK b D' w := by
  refine ⟨hl, hc, fun i hi l hs => ?_, hd.nodev⟩
  by_cases hm : i ∈ D
  · exact hd.part i hm l hs
  · have : l = (den b.A w.g i).flatten := (h.cpu i l (by rw [clean_not hm]; exact hs)).2
    rw [this]; exact .refl _ _

theorem spoiled_sub {b : Backend V} {D D1 : List Nat} {w w1 : World V} (hg : w1.g = w.g) (hm : ∀ i, (w.cpu i).isSome → (w1.cpu i).isSome) (hs : ∀ i, i ∈ D1 → i ∈ D) (d : Option Nat) :
    ∀ i, i ∈ spoiled w1 D1 d → i ∈ spoiled w D d := by
  intro i hi
  cases d with
  | none => exact hs i hi
  | some f =>
    simp only [spoiled] at *
    have hb : (cpuBuf w f).isSome → (cpuBuf w1 f).isSome := by
      intro h
      unfold cpuBuf at *
      rw [hg]
      cases hc : w.cpu f with
      | some l =>
        obtain ⟨l', hl'⟩ := Option.isSome_iff_exists.1 (hm f (by rw [hc]; rfl))
        rw [hl']; rfl
      | none =>
        rw [hc, Option.none_or] at h
        cases w1.cpu f with
        | some l => rfl
        | none => exact h
    split at hi
    · split
      · exact hs i hi
      · exact List.mem_cons_of_mem _ (hs i hi)
    · rename_i h1
      rw [if_neg (fun h => h1 (hb h))]
      rcases List.mem_cons.1 hi with rfl | hi
      · exact List.mem_cons_self
      · exact List.mem_cons_of_mem _ (hs i hi)

theorem mem_spoiled {w : World V} {D : List Nat} {d : Option Nat} {i : Nat} (h : i ∈ spoiled w D d) : d = some i ∨ i ∈ D := by
  cases d with
  | none => exact .inr h
  | some f =>
    simp only [spoiled] at h
    split at h
    · exact .inr h
    · rcases List.mem_cons.1 h with rfl | h
      · exact .inl rfl
      · exact .inr h

/-- What a completed `materialize` does after interruptions. -/
structure MatX (b : Backend V) (D : List Nat) (w w' : World V) (a : Nat) : Prop where
  inv : WInv b (w'.clean (D.filter (· ≠ base w.g a)))
  dirty : DirtyOK b (D.filter (· ≠ base w.g a)) w'
  g : w'.g = w.g
  grad : w'.grad = w.grad
  mono : ∀ i, (w.cpu i).isSome → (w'.cpu i).isSome
  avail : (cpuBuf (w'.clean (D.filter (· ≠ base w.g a))) (base w.g a)).isSome

theorem isConst_false {g : Graph V} (h : WF g) {a : Nat} (ha : a < g.length) (hc : g.ctx a ≠ .const) : (g.ctx a).op.isConst = false := by
  cases hcc : g.ctx a <;> simp only [Ctx.op] <;> try decide
  · exact absurd hcc hc
  · have := h a ha
    unfold NodeOK at this
    have hcc' : (g.nd a).ctx = _ := hcc
    rw [hcc'] at this
    exact unary_not_const this.2.1
  · have := h a ha
    unfold NodeOK at this
    have hcc' : (g.nd a).ctx = _ := hcc
    rw [hcc'] at this
    exact binary_not_const this.2.2.1

theorem launchLog_nonview {isGpu : Bool} {g : Graph V} {a : Nat} {funcs : List Nat} {t : Tbl} {scheds : List Schedule} (hc : (g.ctx a).op.isConst = false) (hv : (g.ctx a).op.isView = false)
    (e : Algo.convert g a = .ok (funcs, t)) (es : schedAll isGpu t funcs = .ok scheds) : launchLog isGpu g a = (funcs.zip scheds).filterMap (plan1 g t (a + 2)) := by
  unfold launchLog launchLogF
  simp only [hc, hv, e, es]; rfl

theorem materialize_nonviewX {b : Backend V} (hb : Faithful b) (hg : b.isGpu = false) {D : List Nat} {w : World V} (h : WInv b (w.clean D)) (hd : DirtyOK b D w) {a : Nat} (ha : a < w.g.length)
    (hv : (w.g.ctx a).op.isView = false) (hns : NoScalarReshape w.g a) (hnc : NoCollision (w.log ++ launchLog b.isGpu w.g a)) (fuel : Nat) :
    ∃ w', materializeF b (fuel + 1) w a = .ok w' ∧ MatX b D w w' a := by
  have hwf : WF w.g := h.wf
  have hbase : base w.g a = a := base_nonview hv
  by_cases hc : w.g.ctx a = .const
  · have hD : D.filter (· ≠ base w.g a) = D := by
      rw [List.filter_eq_self]
      intro i hi
      rw [hbase]
      simp only [ne_eq, decide_eq_true_eq]
      rintro rfl
      exact hd.nonconst _ hi hc
    refine ⟨w, ?_, ?_⟩
    · unfold materializeF; rw [hc]; rfl
    · refine ⟨by rw [hD]; exact h, by rw [hD]; exact hd, rfl, rfl, fun _ h => h, ?_⟩
      rw [hbase]
      exact avail_const (b := b) (w := w.clean _) hwf ha hc
  · have hcop := isConst_false hwf ha hc
    obtain ⟨funcs, t, e, hnd, ⟨pre, hpre⟩, hord, htg, hreach⟩ := convert_good hwf ha hns hv hc
    obtain ⟨scheds, es, hl, hps⟩ := schedAll_ok (isGpu := b.isGpu) htg funcs (fun _ h => h)
    have hlog := launchLog_nonview (isGpu := b.isGpu) hcop hv e es
    have hmap : (funcs.zip scheds).map (·.1) = funcs := by
      apply List.map_fst_zip; omega
    obtain ⟨w', D', e', s', hsub, hnot, av⟩ := runFuncs_dirty hb hg htg (funcs.zip scheds) [] [] D
      { w with log := w.log ++ (funcs.zip scheds).filterMap (plan1 w.g t (a + 2)) }
      ⟨hwf, h.nn, h.cpu, h.dev, fun k K hk => by
        obtain ⟨K0, n0, n, h1, h2⟩ := h.cache k K hk
        exact ⟨K0, n0, n, List.mem_append_left _ h1, h2⟩, h.ev⟩ ⟨hd.lt, hd.nonconst, hd.part, hd.nodev⟩ rfl (by rw [← hlog]; exact hnc)
      (fun p hp => ⟨by rw [← hmap]; exact List.mem_map_of_mem hp, hps p hp⟩)
      (fun p hp q hq => List.mem_append_right _ (List.mem_filterMap.2 ⟨p, hp, hq⟩))
      (by rw [hmap]; simpa using hord) (by simp)
    have haf : a ∈ (funcs.zip scheds).map (·.1) := by rw [hmap, hpre]; simp
    have haD : a ∉ D' := by
      obtain ⟨p, hp, hpa⟩ := List.mem_map.1 haf
      rw [← hpa]; exact hnot p hp
    have hsub' : ∀ i, i ∈ D' → i ∈ D.filter (· ≠ base w.g a) := fun i hi => mem_without.2 ⟨hsub i hi, by rw [hbase]; rintro rfl; exact haD hi⟩
    refine ⟨w', ?_, s'.inv.mask s'.dirty.nodev hsub', DirtyOK.mask s'.inv s'.dirty (fun i hi => ?_) (fun i hi => ?_), s'.g, s'.grad,
      s'.mono, ?_⟩
    · unfold materializeF
      simp only [hcop, hv, e, es, bind, Except.bind]
      exact e'
    · rw [s'.g]; exact hd.lt i (mem_without.1 hi).1
    · rw [s'.g]; exact hd.nonconst i (mem_without.1 hi).1
    · have := av a (by simpa using haf)
      rw [hbase, cpuBuf_clean (fun hm => (mem_without.1 hm).2 rfl)]
      rwa [cpuBuf_clean haD] at this

theorem materializeX {b : Backend V} (hb : Faithful b) (hg : b.isGpu = false) {D : List Nat} {w : World V} (h : WInv b (w.clean D)) (hd : DirtyOK b D w) {a : Nat} (ha : a < w.g.length)
    (hns : NoScalarReshape w.g (base w.g a)) (hnc : NoCollision (w.log ++ launchLog b.isGpu w.g a)) :
    ∃ w', materialize b w a = .ok w' ∧ MatX b D w w' a := by
  have hwf : WF w.g := h.wf
  have hb' := base_le hwf ha
  obtain ⟨f', e⟩ := materializeF_base (b := b) hwf ha (a + 1) (by omega)
  have hv := base_base hwf ha
  rw [launchLog_base hwf ha] at hnc
  obtain ⟨w', e', hr⟩ := materialize_nonviewX hb hg h hd (a := base w.g a) (by omega) hv hns hnc f'
  have hbb : base w.g (base w.g a) = base w.g a := base_nonview hv
  refine ⟨w', by unfold materialize; rw [e]; exact e', ?_, ?_, hr.g, hr.grad, hr.mono, ?_⟩
  · have := hr.inv; rwa [hbb] at this
  · have := hr.dirty; rwa [hbb] at this
  · have := hr.avail; rwa [hbb] at this

/-- What an interrupted `materialize` does. -/
structure IntX (b : Backend V) (D : List Nat) (w : World V) (d : Option Nat) (w' : World V) : Prop where
  inv : WInv b (w'.clean (spoiled w D d))
  dirty : DirtyOK b (spoiled w D d) w'
  g : w'.g = w.g
  grad : w'.grad = w.grad
  mono : ∀ i, (w.cpu i).isSome → (w'.cpu i).isSome

theorem interruptedX {b : Backend V} (hb : Faithful b) (hg : b.isGpu = false) {D : List Nat} {w : World V} (h : WInv b (w.clean D)) (hd : DirtyOK b D w) {a : Nat} {d : Option Nat} {w' : World V}
    (hi : Interrupted b w a d w') : a < w.g.length → NoScalarReshape w.g (base w.g a) → NoCollision (w.log ++ launchLog b.isGpu w.g a) → IntX b D w d w' := by
  have hwf : WF w.g := h.wf
  induction hi with
  | early => intro _ _ _; exact ⟨h, hd, rfl, rfl, fun _ h => h⟩
  | @view a x rest d w' hc hv hx _ ih =>
    intro ha hns hnc
    obtain ⟨x', hx'⟩ := view_input hv hwf ha
    rw [hx'] at hx; cases hx
    have hlt := hwf.inputs_lt ha x (by rw [hx']; simp)
    rw [base_view hwf ha hv hx'] at hns
    rw [launchLog_base hwf ha, base_view hwf ha hv hx', ← launchLog_base hwf (by omega)] at hnc
    exact ih (by omega) hns hnc
  | kernel hc hv e es hz hpre hpart =>
    intro ha hns hnc
    rename_i a d funcs t scheds pre post p w1 w'
    have hbase : base w.g a = a := base_nonview hv
    rw [hbase] at hns
    have hnot : w.g.ctx a ≠ .const := by intro hcc; rw [hcc] at hc; cases hc
    obtain ⟨funcs', t', e', hnd, _, hord, htg, hreach⟩ := convert_good hwf ha hns hv hnot
    rw [e] at e'; cases e'
    obtain ⟨scheds', es', hl, hps⟩ := schedAll_ok (isGpu := b.isGpu) htg funcs (fun _ h => h)
    rw [es] at es'; cases es'
    have hlog := launchLog_nonview (isGpu := b.isGpu) hc hv e es
    have hmap : (funcs.zip scheds).map (·.1) = funcs := by
      apply List.map_fst_zip; omega
    have hmem : ∀ q ∈ pre ++ p :: post, q ∈ funcs.zip scheds := fun q hq => by rw [hz]; exact hq
    have hgood : ∀ q ∈ pre ++ p :: post, q.1 ∈ funcs ∧ ∃ F, t q.1 = some F ∧ Sched.schedule b.isGpu F = .ok q.2 :=
      fun q hq => ⟨by rw [← hmap]; exact List.mem_map_of_mem (hmem q hq), hps q (hmem q hq)⟩
    obtain ⟨w1', D1, e1, s1, hsub, hnotD, av⟩ := runFuncs_dirty hb hg htg pre [] (p.1 :: post.map (·.1)) D
      { w with log := w.log ++ (funcs.zip scheds).filterMap (plan1 w.g t (a + 2)) }
      ⟨hwf, h.nn, h.cpu, h.dev, fun k K hk => by
        obtain ⟨K0, n0, n, h1, h2⟩ := h.cache k K hk
        exact ⟨K0, n0, n, List.mem_append_left _ h1, h2⟩, h.ev⟩ ⟨hd.lt, hd.nonconst, hd.part, hd.nodev⟩ rfl (by rw [← hlog]; exact hnc)
      (fun q hq => hgood q (by simp [hq]))
      (fun q hq r hr => List.mem_append_right _ (List.mem_filterMap.2 ⟨q, hmem q (by simp [hq]), hr⟩))
      (by rw [← hmap, hz] at hord; simpa using hord) (by simp)
    rw [hpre] at e1; cases e1
    obtain ⟨hpf, F, hF, hsch⟩ := hgood p (by simp)
    have hgg : w1.g = w.g := s1.g
    obtain ⟨s2, hdp⟩ := runPart_dirty (a := a) (S := (· ∈ funcs)) hb hg s1.inv s1.dirty (by rw [hgg]; exact htg) hpf hF hsch
      (fun d hd' => av d (by
        have := hord (pre.map (·.1)) p.1 (post.map (·.1)) (by rw [← hmap, hz]; simp) F hF d hd'
        simpa using this)) (by rw [s1.log]; rw [← hlog]; exact hnc)
      (fun q hq => by
        rw [hgg] at hq
        rw [s1.log]
        exact List.mem_append_right _ (List.mem_filterMap.2 ⟨p, hmem p (by simp), hq⟩)) (d := d) (w' := w') hpart
    have hsub2 := spoiled_sub (b := b) (D := D) (w := w) hgg s1.mono hsub d
    have hfl : p.1 < w.g.length ∧ w.g.ctx p.1 ≠ .const := by
      obtain ⟨_, h1, F', h2, h3, _⟩ := htg.entry p.1 hpf
      exact ⟨h3.lt, h1⟩
    refine ⟨s2.inv.mask s2.dirty.nodev hsub2, DirtyOK.mask s2.inv s2.dirty (fun i hi => ?_) (fun i hi => ?_), s2.g.trans hgg, s2.grad.trans s1.grad, fun i hs => s2.mono i (s1.mono i hs)⟩
    · rw [s2.g, hgg]
      rcases mem_spoiled hi with hi | hi
      · rw [hdp i (by rw [hi]; rfl)]; exact hfl.1
      · exact hd.lt i hi
    · rw [s2.g, hgg]
      rcases mem_spoiled hi with hi | hi
      · rw [hdp i (by rw [hi]; rfl)]; exact hfl.2
      · exact hd.nonconst i hi

/-! ### histories -/

/-- The invariant of programs whose calls may be interrupted. -/
structure InvX (b : Backend V) (D : List Nat) (w : World V) : Prop where
  inv : InvG False b (w.clean D)
  dirty : DirtyOK b D w

/-- What survives. -/
structure LaterX (w w' : World V) : Prop where
  ext : Ext w.g w'.g
  mono : ∀ i, (w.cpu i).isSome → (w'.cpu i).isSome

theorem InvX.init (b : Backend V) : InvX b [] (Mat.init : World V) := by
  have h := Inv.init b
  have e : (Mat.init : World V).clean [] = Mat.init := by
    unfold World.clean; simp
  exact ⟨by rw [e]; exact ⟨h.winv, h.nn, h.gs, False.elim⟩, by simp, by simp, by simp, fun _ => rfl⟩

theorem LaterX.refl (w : World V) : LaterX w w := ⟨.refl _, fun _ h => h⟩
theorem LaterX.trans {w w' w'' : World V} (h : LaterX w w') (k : LaterX w' w'') : LaterX w w'' := ⟨h.ext.trans k.ext, fun i hi => k.mono i (h.mono i hi)⟩

theorem madeE_clean (D : List Nat) (w : World V) (p : Except Err (Nat × Graph V)) : madeE (w.clean D) p = (madeE w p).map fun q => (q.1, q.2.clean D) := by
  cases p <;> rfl

/-- Calls that neither compute nor read. -/
def quiet : Call V → Bool
  | .materialize _ | .tolist _ | .backward _ => false
  | _ => true

theorem notQuiet {c : Call V} (h : ¬ quiet c = true) : (∃ a, c = .materialize a) ∨ (∃ a, c = .tolist a) ∨ ∃ a, c = .backward a := by
  cases c <;> first | exact absurd rfl h | exact .inl ⟨_, rfl⟩ | exact .inr (.inl ⟨_, rfl⟩) | exact .inr (.inr ⟨_, rfl⟩)

theorem exec1_clean (b : Backend V) (D : List Nat) (w : World V) {c : Call V} (hq : quiet c = true) : exec1 b (w.clean D) c = (exec1 b w c).map fun q => (q.1, q.2.clean D) := by
  cases c <;> first | (cases hq; done) | rfl | exact madeE_clean D w _

theorem made_keeps {w w' : World V} {p : Nat × Graph V} {o : Out V} (h : made w p = .ok (o, w')) : w'.cpu = w.cpu ∧ w'.dev = w.dev := by
  obtain ⟨rfl, rfl⟩ := made_eq h; exact ⟨rfl, rfl⟩

theorem madeE_keeps {w w' : World V} {p : Except Err (Nat × Graph V)} {o : Out V} (h : madeE w p = .ok (o, w')) : w'.cpu = w.cpu ∧ w'.dev = w.dev := by
  obtain ⟨r, g', _, rfl, rfl⟩ := madeE_eq h; exact ⟨rfl, rfl⟩

theorem exec1_keeps {b : Backend V} {w w' : World V} {c : Call V} {o : Out V} (hq : quiet c = true) (h : exec1 b w c = .ok (o, w')) : w'.cpu = w.cpu ∧ w'.dev = w.dev := by
  cases c <;> first | (cases hq; done) | exact made_keeps h | exact madeE_keeps h | (simp only [exec1] at h; cases h; exact ⟨rfl, rfl⟩)

theorem argsOK_clean {b : Backend V} {D : List Nat} {w : World V} {c : Call V} (h : ArgsOK b w c) : ArgsOK b (w.clean D) c := by
  cases c <;> exact h

theorem DirtyOK.ext {b : Backend V} {D : List Nat} {w w' : World V} (h : DirtyOK b D w) (he : Ext w.g w'.g) (hw : WF w'.g) (hc : w'.cpu = w.cpu) (hd : w'.dev = w.dev) : DirtyOK b D w' := by
  refine ⟨fun i hi => Nat.lt_of_lt_of_le (h.lt i hi) he.length, fun i hi => by rw [he.ctx (h.lt i hi)]; exact h.nonconst i hi, fun i hi l hl => ?_, fun i => by rw [hd]; exact h.nodev i⟩
  rw [hc] at hl
  rw [den_ext b.A he hw (h.lt i hi)]; exact h.part i hi l hl

theorem quiet_repaired {w : World V} {D : List Nat} {c : Call V} (h : quiet c = true) : repaired w D c = D := by
  cases c <;> first | rfl | cases h

/-- On a CPU backend `tolist` changes nothing. -/
theorem tolist_cpu {b : Backend V} (hg : b.isGpu = false) {w : World V} {a : Nat} {p : Nested V × World V} (h : tolist b w a = .ok p) : p.2 = w ∧ ∃ data, cpuBuf w (base w.g a) = some data := by
  unfold tolist at h
  obtain ⟨w1, h1, h2⟩ := except_bind_ok h
  unfold ensureCpu at h1
  split at h1
  · rename_i l hl
    cases h1
    rw [hl] at h2
    obtain ⟨q, _, h3⟩ := except_bind_ok h2
    cases h3; exact ⟨rfl, l, hl⟩
  · rw [if_neg (by rw [hg]; decide)] at h1; cases h1

theorem next_okX {b : Backend V} (hb : Faithful b) (hg : b.isGpu = false) {D : List Nat} {w w' : World V} (h : InvX b D w) {c : Call V} (hl : Legal b w c) (hn : next b w c = some w') :
    InvX b (repaired w D c) w' ∧ LaterX w w' := by
  have hwf : WF w.g := h.inv.winv.wf
  unfold next at hn
  cases hs : step b w c with
  | error e =>
    rw [hs] at hn
    simp only at hn
    split at hn
    · rename_i hat
      cases hn
      have : repaired w D c = D := by cases c <;> first | rfl | cases hat
      rw [this]
      exact ⟨h, .refl w⟩
    · cases hn
  | ok p =>
    obtain ⟨o, w1⟩ := p
    rw [hs] at hn
    cases hn
    have ha : ArgsOK b w c := hl.resolve_left (by rintro ⟨e, he⟩; rw [hs] at he; cases he)
    clear hl
    unfold step at hs
    split at hs
    case isFalse => cases hs
    rename_i hin
    by_cases hq : quiet c = true
    · have hs' : step b (w.clean D) c = .ok (o, w'.clean D) := by
        unfold step
        rw [if_pos (show ∀ a ∈ c.arrays, a < (w.clean D).g.length from hin), exec1_clean b D w hq, hs]; rfl
      have hok := step_ok hb h.inv (argsOK_clean ha) hs'
      have hk := exec1_keeps hq hs
      rw [quiet_repaired hq]
      exact ⟨⟨hok.inv, h.dirty.ext hok.later.ext hok.inv.winv.wf hk.1 hk.2⟩, hok.later.ext, fun i hi => by rw [hk.1]; exact hi⟩
    · rcases notQuiet hq with ⟨a, rfl⟩ | ⟨a, rfl⟩ | ⟨a, rfl⟩
      · have hal := hin a (by simp [Call.arrays])
        obtain ⟨w2, e, r⟩ := materializeX hb hg h.inv.winv h.dirty hal ha.1 ha.2.1
        simp only [exec1, e] at hs
        cases hs
        refine ⟨⟨⟨r.inv, ?_, ?_, False.elim⟩, r.dirty⟩, by rw [r.g]; exact .refl _, r.mono⟩
        · have : NN w'.g := by rw [r.g]; exact h.inv.nn
          exact this
        · intro i k hk
          have hk' : w'.grad i = some k := hk
          rw [r.grad] at hk'
          have := h.inv.gs i k hk'
          show i < w'.g.length ∧ k < w'.g.length ∧ w'.g.shape k = w'.g.shape i
          rw [r.g]; exact this
      · simp only [exec1] at hs
        cases ht : tolist b w a with
        | error e => rw [ht] at hs; cases hs
        | ok p =>
          rw [ht] at hs
          cases hs
          rw [(tolist_cpu hg ht).1]
          exact ⟨h, .refl w⟩
      · have hal := hin a (by simp [Call.arrays])
        have hgs : GradShapes w := h.inv.gs
        obtain ⟨w2, order, e, r⟩ := backward_ok b.A hwf h.inv.nn hgs hal ha
        simp only [exec1, e] at hs
        cases hs
        have hst := r.step
        have hrest := hst.rest
        have hw := h.inv.winv.ext hst.ext hst.wf hst.nn w'.grad
        have hcpu : w'.cpu = w.cpu := by rw [hrest]
        have hdev : w'.dev = w.dev := by rw [hrest]
        refine ⟨⟨⟨?_, hst.nn, hst.gs, False.elim⟩, h.dirty.ext hst.ext hst.wf hcpu hdev⟩, hst.ext, fun i hi => by rw [hcpu]; exact hi⟩
        have e2 : w'.clean D = { w.clean D with g := w'.g, grad := w'.grad } := by
          conv => lhs; rw [hrest]
          rfl
        show WInv b (w'.clean D)
        rw [e2]; exact hw

theorem stopped_okX {b : Backend V} {D : List Nat} {w w' : World V} (h : InvX b D w) {y : Nat} (hy : y < w.g.length) (ha : ArgsOK b w (.backward y)) (hs : Bwd.Stopped b.A w y w') :
    InvX b D w' ∧ LaterX w w' := by
  have hgs : GradShapes w := h.inv.gs
  have hwf : WF w.g := h.inv.winv.wf
  have hst := (hs.bstep b.A hwf h.inv.nn hgs hy ha).1
  have hrest := hst.rest
  have hw := h.inv.winv.ext hst.ext hst.wf hst.nn w'.grad
  have hcpu : w'.cpu = w.cpu := by rw [hrest]
  have hdev : w'.dev = w.dev := by rw [hrest]
  refine ⟨⟨⟨?_, hst.nn, hst.gs, False.elim⟩, h.dirty.ext hst.ext hst.wf hcpu hdev⟩, hst.ext, fun i hi => by rw [hcpu]; exact hi⟩
  have e2 : w'.clean D = { w.clean D with g := w'.g, grad := w'.grad } := by
    conv => lhs; rw [hrest]
    rfl
  show WInv b (w'.clean D)
  rw [e2]; exact hw

theorem crash_okX {b : Backend V} (hb : Faithful b) (hg : b.isGpu = false) {D : List Nat} {w w' : World V} (h : InvX b D w) {a : Nat} (ha : a < w.g.length) (hargs : ArgsOK b w (.materialize a))
    {d : Option Nat} (hi : Interrupted b w a d w') : InvX b (spoiled w D d) w' ∧ LaterX w w' := by
  have r := interruptedX hb hg h.inv.winv h.dirty hi ha hargs.1 hargs.2.1
  refine ⟨⟨⟨r.inv, ?_, ?_, False.elim⟩, r.dirty⟩, by rw [r.g]; exact .refl _, r.mono⟩
  · have : NN w'.g := by rw [r.g]; exact h.inv.nn
    exact this
  · intro i k hk
    have hk' : w'.grad i = some k := hk
    rw [r.grad] at hk'
    have := h.inv.gs i k hk'
    show i < w'.g.length ∧ k < w'.g.length ∧ w'.g.shape k = w'.g.shape i
    rw [r.g]; exact this

theorem RunsX.later {b : Backend V} (hb : Faithful b) (hg : b.isGpu = false) {D D' : List Nat} {w w' : World V} (h : InvX b D w) (hr : RunsX b w D w' D') : InvX b D' w' ∧ LaterX w w' := by
  induction hr with
  | refl => exact ⟨h, .refl w⟩
  | call _ hl hn ih =>
    have := next_okX hb hg ih.1 hl hn
    exact ⟨this.1, ih.2.trans this.2⟩
  | stopped _ hy ha hs ih =>
    have := stopped_okX ih.1 hy ha hs
    exact ⟨this.1, ih.2.trans this.2⟩
  | crash _ ha hargs hi ih =>
    have := crash_okX hb hg ih.1 ha hargs hi
    exact ⟨this.1, ih.2.trans this.2⟩

theorem ReachableX.inv {b : Backend V} (hb : Faithful b) (hg : b.isGpu = false) {D : List Nat} {w : World V} (h : ReachableX b w D) : InvX b D w :=
  (RunsX.later hb hg (.init b) h).1

/-- Reading an array that is not spoiled. -/
theorem tolistX {b : Backend V} {D : List Nat} {w : World V} (h : InvX b D w) {a : Nat} (ha : a < w.g.length) (hD : base w.g a ∉ D) (hno : NoOffsetReshape w.g a)
    (hav : (cpuBuf w (base w.g a)).isSome) : tolist b w a = .ok ((den b.A w.g a).toNested, w) := by
  have hwf : WF w.g := h.inv.winv.wf
  have hbl := Nat.lt_of_le_of_lt (base_le hwf ha) ha
  obtain ⟨l, hl⟩ := Option.isSome_iff_exists.1 hav
  have hval : l = (den b.A w.g (base w.g a)).flatten := cpuBuf_ok h.inv.winv hbl (by rw [cpuBuf_clean hD]; exact hl)
  unfold tolist ensureCpu
  simp only [hl, bind, Except.bind]
  rw [hval, toNdlist_den b.A hwf ha hno]; rfl

/-! ### no backend changes arrays or gradients -/

/-- Arrays and gradients are the same. -/
def SameArrays (w w' : World V) : Prop := w'.g = w.g ∧ w'.grad = w.grad

theorem SameArrays.trans {w w' w'' : World V} (h : SameArrays w w') (k : SameArrays w' w'') : SameArrays w w'' := ⟨k.1.trans h.1, k.2.trans h.2⟩

theorem fillCpu_same (A : Scalar V) (w : World V) (i : Nat) : SameArrays w (fillCpu A w i) := by
  unfold fillCpu; split <;> exact ⟨rfl, rfl⟩

theorem fillAll_same (A : Scalar V) (l : List Nat) (w : World V) : SameArrays w (l.foldl (fillCpu A) w) := by
  induction l generalizing w with
  | nil => exact ⟨rfl, rfl⟩
  | cons i l ih => exact (fillCpu_same A w i).trans (ih _)

theorem alloc_same {b : Backend V} {w w' : World V} {i : Nat} (h : alloc b w i = .ok w') : SameArrays w w' := by
  unfold alloc at h
  split at h
  · cases h; exact ⟨rfl, rfl⟩
  · split at h
    · cases h
    · cases h; exact ⟨rfl, rfl⟩

theorem toDev_same {b : Backend V} {w w' : World V} {p : Nat × Nat} (h : toDev b w p = .ok w') : SameArrays w w' := by
  unfold toDev at h
  obtain ⟨w1, h1, h2⟩ := except_bind_ok h
  cases h2
  have : SameArrays w w1 := by
    unfold alloc at h1
    split at h1
    · cases h1; exact ⟨rfl, rfl⟩
    · split at h1
      · cases h1
      · cases h1; exact ⟨rfl, rfl⟩
  refine this.trans ?_
  unfold htod
  split
  · split <;> exact ⟨rfl, rfl⟩
  · exact ⟨rfl, rfl⟩

theorem toDevs_same {b : Backend V} {l : List (Nat × Nat)} {w w' : World V} (h : l.foldlM (toDev b) w = .ok w') : SameArrays w w' := by
  induction l generalizing w with
  | nil => cases h; exact ⟨rfl, rfl⟩
  | cons p l ih =>
    rw [List.foldlM_cons] at h
    obtain ⟨w1, h1, h2⟩ := except_bind_ok h
    exact (toDev_same h1).trans (ih h2)

theorem invoke_same {b : Backend V} {w w' : World V} {sch : Schedule} {K : Kernel} {out : Nat} {ins : List Nat}
    (h : invoke b w sch K out ins = .ok w') : SameArrays w w' := by
  unfold invoke at h
  simp only [bind, Except.bind] at h
  split at h
  · cases h
  · split at h
    · cases h
    · split at h
      · split at h
        · cases h
        · rename_i w1 h1
          have f1 := toDevs_same h1
          split at h
          · split at h
            · cases h; exact f1
            · cases h
          · cases h
      · have f1 := fillAll_same b.A (out :: ins) w
        split at h
        · split at h
          · cases h; exact f1
          · cases h
        · cases h

theorem runFunc_same {b : Backend V} {t : Tbl} {fuel : Nat} {w w' : World V} {p : Nat × Schedule} (h : runFunc b t fuel w p = .ok w') : SameArrays w w' := by
  unfold runFunc at h
  cases hF : t p.1 with
  | none => simp only [hF] at h; cases h
  | some F =>
    simp only [hF] at h
    obtain ⟨outs, h1, h⟩ := except_bind_ok h
    obtain ⟨key, h2, h⟩ := except_bind_ok h
    split at h
    · exact ⟨(invoke_same h).1, (invoke_same h).2⟩
    · obtain ⟨q, h3, h⟩ := except_bind_ok h
      obtain ⟨w1, h4, h⟩ := except_bind_ok h
      cases h
      exact ⟨(invoke_same h4).1, (invoke_same h4).2⟩

theorem runFuncs_same {b : Backend V} {t : Tbl} {fuel : Nat} {l : List (Nat × Schedule)} {w w' : World V} (h : l.foldlM (runFunc b t fuel) w = .ok w') : SameArrays w w' := by
  induction l generalizing w with
  | nil => cases h; exact ⟨rfl, rfl⟩
  | cons p l ih =>
    rw [List.foldlM_cons] at h
    obtain ⟨w1, h1, h2⟩ := except_bind_ok h
    exact (runFunc_same h1).trans (ih h2)

theorem invokePart_same {b : Backend V} {w w' : World V} {sch : Schedule} {K : Kernel} {out : Nat} {ins : List Nat} (h : InvokePart b w sch K out ins w') : SameArrays w w' := by
  cases h with
  | filling k _ => exact fillAll_same _ _ _
  | running _ e _ _ _ _ => subst e; exact ⟨(fillAll_same b.A (out :: ins) w).1, (fillAll_same b.A (out :: ins) w).2⟩
  | copying k _ e => exact toDevs_same e
  | allocating k _ e _ ha => exact (toDevs_same e).trans (alloc_same ha)
  | launched _ e _ _ _ _ => exact ⟨(toDevs_same e).1, (toDevs_same e).2⟩

theorem interrupted_same {b : Backend V} {w w' : World V} {a : Nat} {d : Option Nat} (h : Interrupted b w a d w') : SameArrays w w' := by
  induction h with
  | early => exact ⟨rfl, rfl⟩
  | view _ _ _ _ ih => exact ih
  | kernel _ _ _ _ _ hpre hpart =>
    have h1 := runFuncs_same hpre
    refine SameArrays.trans (w' := _) h1 ?_
    cases hpart with
    | before n => exact ⟨rfl, rfl⟩
    | hit _ _ _ _ hi => exact ⟨(invokePart_same hi).1, (invokePart_same hi).2⟩
    | miss _ _ _ _ _ hi => exact ⟨(invokePart_same hi).1, (invokePart_same hi).2⟩

/-! ### computing an interrupted world (for the demonstrations) -/

/-- `invoke`, interrupted after `j` stores. -/
def invokeAt (b : Backend V) (w : World V) (sch : Schedule) (K : Kernel) (out : Nat) (ins : List Nat) (j : Nat) : Option (World V) :=
  if b.isGpu then
    match (out :: ins).zipIdx.foldlM (toDev b) w with
    | .error _ => none
    | .ok w1 => match w1.dev out, ins.mapM w1.dev with
      | some o, some is => match gpuRun b w1.tick (machine b K o is) sch K.body with
        | some ws => some { w1 with dev := upd w1.dev out (Kern.applyWrites o (ws.take j)), tick := w1.tick + 1, ev := w1.ev ++ [.launch out ins] }
        | none => none
      | _, _ => none
  else
    match cpuBuf ((out :: ins).foldl (fillCpu b.A) w) out, ins.mapM (cpuBuf ((out :: ins).foldl (fillCpu b.A) w)) with
    | some o, some is => match b.run ((out :: ins).foldl (fillCpu b.A) w).tick (machine b K o is) sch K.body with
      | some ws => some { (out :: ins).foldl (fillCpu b.A) w with
          cpu := upd ((out :: ins).foldl (fillCpu b.A) w).cpu out (Kern.applyWrites o (ws.take j)), tick := ((out :: ins).foldl (fillCpu b.A) w).tick + 1 }
      | none => none
    | _, _ => none

theorem invokeAt_part {b : Backend V} {w w' : World V} {sch : Schedule} {K : Kernel} {out : Nat} {ins : List Nat} {j : Nat} (h : invokeAt b w sch K out ins j = some w') :
    InvokePart b w sch K out ins w' := by
  unfold invokeAt at h
  split at h
  · rename_i hg
    split at h
    · cases h
    · rename_i w1 h1
      split at h
      · rename_i o is ho hi
        split at h
        · rename_i ws hw
          cases h
          exact .launched hg h1 ho hi hw (List.take_prefix _ _)
        · cases h
      · cases h
  · rename_i hg
    have hg : b.isGpu = false := by simpa using hg
    split at h
    · rename_i o is ho hi
      split at h
      · rename_i ws hw
        cases h
        exact .running hg rfl ho hi hw (List.take_prefix _ _)
      · cases h
    · cases h

/-- `a.materialize()`, interrupted in its `k`-th function after `j` stores: the array being computed, and the world. -/
def crashAt (b : Backend V) (w : World V) (a k j : Nat) : Option (Nat × World V) :=
  if (w.g.ctx a).op.isConst || (w.g.ctx a).op.isView then none else
  match Algo.convert w.g a with
  | .error _ => none
  | .ok (funcs, t) => match schedAll b.isGpu t funcs with
    | .error _ => none
    | .ok scheds => match (funcs.zip scheds).drop k with
      | [] => none
      | p :: _ => match ((funcs.zip scheds).take k).foldlM (runFunc b t (a + 2)) { w with log := w.log ++ (funcs.zip scheds).filterMap (plan1 w.g t (a + 2)) } with
        | .error _ => none
        | .ok w1 => match t p.1 with
          | none => none
          | some F => match outBufs t (Algo.args F.expr).2, cacheKey w1.g t (a + 2) F p.2 with
            | .ok outs, .ok key => match w1.cache.lookup key with
              | some K => (invokeAt b { w1 with hits := fun k => if k = key then w1.hits k + 1 else w1.hits k } p.2 K F.outBuffer ((Algo.args F.expr).1 ++ outs) j).map fun w => (F.outBuffer, w)
              | none => match Codegen.codegen w1.g t F p.2 ⟨(Algo.args F.expr).1, (Algo.args F.expr).2⟩ w1.tmp with
                | .error _ => none
                | .ok (K, n) => (invokeAt b { w1 with tmp := n, cache := w1.cache ++ [(key, K)], hits := fun k => if k = key then 0 else w1.hits k } p.2 K F.outBuffer
                    ((Algo.args F.expr).1 ++ outs) j).map fun w => (F.outBuffer, w)
            | _, _ => none

theorem crashAt_interrupted {b : Backend V} {w w' : World V} {a k j f : Nat} (h : crashAt b w a k j = some (f, w')) : Interrupted b w a (some f) w' := by
  unfold crashAt at h
  split at h
  · cases h
  rename_i hcv
  simp only [Bool.or_eq_true, not_or, Bool.not_eq_true] at hcv
  split at h
  · cases h
  rename_i funcs t hconv
  split at h
  · cases h
  rename_i scheds hs
  split at h
  · cases h
  rename_i p post hdrop
  split at h
  · cases h
  rename_i w1 hrun
  split at h
  · cases h
  rename_i F hF
  have hz : funcs.zip scheds = (funcs.zip scheds).take k ++ p :: post := by rw [← hdrop, List.take_append_drop]
  split at h
  · rename_i outs key ho hk
    split at h
    · rename_i K hl
      obtain ⟨w2, h1, h2⟩ := Option.map_eq_some_iff.1 h
      cases h2
      exact .kernel hcv.1 hcv.2 hconv hs hz hrun (.hit hF ho hk hl (invokeAt_part h1))
    · rename_i hl
      split at h
      · cases h
      · rename_i K n hc
        obtain ⟨w2, h1, h2⟩ := Option.map_eq_some_iff.1 h
        cases h2
        exact .kernel hcv.1 hcv.2 hconv hs hz hrun (.miss hF ho hk hl hc (invokeAt_part h1))
  · cases h

/-- A program without interruption is a program. -/
theorem Reachable.x {b : Backend V} {w : World V} (h : Reachable b w) : ReachableX b w [] := by
  induction h with
  | init => exact .refl
  | @call w w' c _ hl hn ih =>
    have : repaired w [] c = [] := by cases c <;> rfl
    have h2 := RunsX.call ih hl hn
    rwa [this] at h2
  | stopped _ hy ha hs ih => exact .stopped ih hy ha hs

end Whale
