import Verif.Proofs.KernelCpu
import Verif.Spec.Grid
import Verif.Spec.Custom
import Mathlib.Data.Multiset.Bind
/-
GPU kernels: the automatic GPU schedule covers every output element exactly once.
-/
namespace Whale
open Algo Codegen Kern
variable {V : Type} [Lim]

/-! ### splitting a range -/

theorem irange_succ {n : Int} (h : 0 ≤ n) : irange (n + 1) = irange n ++ [n] := by
  unfold irange
  obtain ⟨k, rfl⟩ := Int.eq_ofNat_of_zero_le h
  have : ((k : Int) + 1).toNat = k + 1 := by omega
  rw [this, List.range_succ]
  simp

theorem irange_add {a b : Int} (ha : 0 ≤ a) (hb : 0 ≤ b) : irange (a + b) = irange a ++ (irange b).map (a + ·) := by
  obtain ⟨k, rfl⟩ := Int.eq_ofNat_of_zero_le hb
  induction k with
  | zero => simp [irange]
  | succ k ih =>
    have e : a + ((k + 1 : Nat) : Int) = (a + (k : Int)) + 1 := by push_cast; omega
    rw [e, irange_succ (by omega), ih (by omega)]
    have e2 : ((k + 1 : Nat) : Int) = (k : Int) + 1 := by push_cast; rfl
    rw [e2, irange_succ (by omega)]
    simp

/-- The part of one block that is inside the range. -/
theorem inner_block {α : Type} (f : Int) (hf : 0 ≤ f) (b e : Int) (w : Int → α) :
    ((irange f).flatMap fun i => if b + i < e then [w (b + i)] else []) = (irange (min f (e - b))).map (fun i => w (b + i)) := by
  obtain ⟨k, rfl⟩ := Int.eq_ofNat_of_zero_le hf
  induction k with
  | zero =>
    have : irange (min ((0 : Nat) : Int) (e - b)) = [] := by
      unfold irange; rw [show (min ((0 : Nat) : Int) (e - b)).toNat = 0 by omega]; rfl
    rw [this]; simp [irange]
  | succ k ih =>
    have e2 : ((k + 1 : Nat) : Int) = (k : Int) + 1 := by push_cast; rfl
    rw [e2, irange_succ (by omega), List.flatMap_append, ih (by omega)]
    by_cases h : b + k < e
    · rw [show min ((k : Int)) (e - b) = k by omega, show min ((k : Int) + 1) (e - b) = (k : Int) + 1 by omega, irange_succ (by omega)]
      simp [h]
    · rw [show min ((k : Int)) (e - b) = e - b by omega, show min ((k : Int) + 1) (e - b) = e - b by omega]
      simp [h]

theorem split_range_aux {α : Type} {f : Int} (hf : 0 < f) (e : Int) (w : Int → α) (c : Nat) :
    ((irange c).flatMap fun o => (irange f).flatMap fun i => if o * f + i < e then [w (o * f + i)] else [])
      = (irange (min (c * f) e)).map w := by
  induction c with
  | zero =>
    have : irange (min (((0 : Nat) : Int) * f) e) = [] := by
      unfold irange; rw [show (min (((0 : Nat) : Int) * f) e).toNat = 0 by simp]; rfl
    rw [this]; simp [irange]
  | succ c ih =>
    have e2 : ((c + 1 : Nat) : Int) = (c : Int) + 1 := by push_cast; rfl
    rw [e2, irange_succ (by omega), List.flatMap_append, ih]
    simp only [List.flatMap_cons, List.flatMap_nil, List.append_nil]
    rw [inner_block f (by omega)]
    have hcf : 0 ≤ (c : Int) * f := Int.mul_nonneg (by omega) (by omega)
    rw [Int.add_mul, Int.one_mul]
    generalize (c : Int) * f = x at *
    by_cases h : x ≤ e
    · rw [Int.min_eq_left h]
      have e3 : min (x + f) e = x + min f (e - x) := by omega
      rw [e3, irange_add hcf (by omega), List.map_append, List.map_map]
      rfl
    · have : irange (min f (e - x)) = [] := by
        unfold irange; rw [show (min f (e - x)).toNat = 0 by omega]; rfl
      rw [this, show min x e = e by omega, show min (x + f) e = e by omega]
      simp

theorem ceilDiv_mul_ge {e f : Int} (hf : 0 < f) : e ≤ Sched.ceilDiv e f * f := by
  unfold Sched.ceilDiv
  have h1 := Int.emod_nonneg (-e) (show f ≠ 0 by omega)
  have h2 := Int.mul_ediv_add_emod (-e) f
  have h3 : (-(-e / f)) * f = -(f * (-e / f)) := by rw [Int.neg_mul, Int.mul_comm]
  rw [h3]; omega

theorem ceilDiv_nonneg {e f : Int} (he : 0 ≤ e) (hf : 0 < f) : 0 ≤ Sched.ceilDiv e f := by
  unfold Sched.ceilDiv
  have : -e / f ≤ 0 := Int.ediv_nonpos_of_nonpos_of_neg (by omega) hf
  omega

/-- Outer and inner loop with the tail skipped enumerate the original range. -/
theorem split_range {α : Type} {e f : Int} (he : 0 ≤ e) (hf : 0 < f) (w : Int → α) :
    ((irange (Sched.ceilDiv e f)).flatMap fun o => (irange f).flatMap fun i => if o * f + i < e then [w (o * f + i)] else [])
      = (irange e).map w := by
  obtain ⟨c, hc⟩ := Int.eq_ofNat_of_zero_le (ceilDiv_nonneg he hf)
  have h1 := ceilDiv_mul_ge (e := e) hf
  rw [hc] at h1 ⊢
  rw [split_range_aux hf, Int.min_eq_right h1]

/-- Without remainder the tail test is never true. -/
theorem split_exact {e f o i : Int} (hf : 0 < f) (hd : e % f = 0) (ho : o < Sched.ceilDiv e f) (hi : i < f) : o * f + i < e := by
  have h2 := Int.mul_ediv_add_emod e f
  have h3 : Sched.ceilDiv e f = e / f := by
    unfold Sched.ceilDiv
    have : -e = f * (-(e / f)) := by rw [Int.mul_neg]; omega
    rw [this, Int.mul_ediv_cancel_left _ (by omega)]; omega
  rw [h3] at ho
  have : (o + 1) * f ≤ e / f * f := Int.mul_le_mul_of_nonneg_right (by omega) (by omega)
  rw [Int.add_mul, Int.one_mul, Int.mul_comm (e / f)] at this
  omega

/-! ### loops on one thread -/

/-- The assignments to the loop variables that one thread goes through. -/
def tIdx (t : Thread) : List LoopSched → List (List Int)
  | [] => [[]]
  | l :: ls => match l.exec with
    | .gpuBlock d => (tIdx t ls).map (t.block d :: ·)
    | .gpuThread d => (tIdx t ls).map (t.thread d :: ·)
    | _ => (irange l.lv.extent).flatMap fun i => (tIdx t ls).map (i :: ·)

/-- Outcome on one thread: the stores `ws`; an early return only on threads that have nothing to store. -/
def ThreadOK (m : Machine V) (s : Stmt) (σ : KEnv V) (ws : List (Int × V)) (fl : Bool) : Prop :=
  ∃ σ' r, exec m s σ = some ⟨σ', ws, r⟩ ∧ Le σ σ' ∧ (r = true → fl = true)

theorem threadOK_loop {m : Machine V} {mode : LoopExec} {x : VName} {n : Int} {b : Stmt} {σ : KEnv V} {W : Int → List (Int × V)} {fl : Bool}
    (hx : σ x = none) (hW : fl = true → ∀ i ∈ irange n, W i = []) (h : ∀ i ∈ irange n, ThreadOK m b (σ.set x (.I i)) (W i) fl) :
    ThreadOK m (.loop mode x n b) σ ((irange n).flatMap W) fl := by
  have key : ∀ (is : List Int) (acc : List (Int × V)) (r0 : Bool), (r0 = true → fl = true) → (fl = true → ∀ i ∈ is, W i = []) →
      (∀ i ∈ is, ThreadOK m b (σ.set x (.I i)) (W i) fl) →
      ∃ r, is.foldlM (fun (st : St V) i => if st.ret then pure st else do
        let r ← exec m b (st.env.set x (.I i))
        pure ⟨KEnv.leave st.env r.env, st.writes ++ r.writes, r.ret⟩) ⟨σ, acc, r0⟩ = some ⟨σ, acc ++ is.flatMap W, r⟩ ∧ (r = true → fl = true) := by
    intro is
    induction is with
    | nil => intro acc r0 h0 _ _; exact ⟨r0, by simp, h0⟩
    | cons i is ih =>
      intro acc r0 h0 hW h
      rw [List.foldlM_cons]
      cases r0 with
      | true =>
        have hw : W i = [] := hW (h0 rfl) i (by simp)
        obtain ⟨r, e, hr⟩ := ih acc true h0 (fun hf j hj => hW hf j (by simp [hj])) (fun j hj => h j (by simp [hj]))
        refine ⟨r, ?_, hr⟩
        simp only [if_true, pure, Option.bind_eq_bind, Option.bind_some] at e ⊢
        rw [e]; simp [hw]
      | false =>
        obtain ⟨σ', r1, e1, hl, hr1⟩ := h i (by simp)
        obtain ⟨r, e, hr⟩ := ih (acc ++ W i) r1 hr1 (fun hf j hj => hW hf j (by simp [hj])) (fun j hj => h j (by simp [hj]))
        refine ⟨r, ?_, hr⟩
        simp only [Bool.false_eq_true, if_false, e1, Option.bind_eq_bind, Option.bind_some, pure, leave_leave_set hx hl] at e ⊢
        rw [e]; simp [List.append_assoc]
  obtain ⟨r, e, hr⟩ := key (irange n) [] false (by simp) hW h
  refine ⟨σ, r, ?_, Le.refl _, hr⟩
  simp only [exec, hx]
  simpa using e

theorem threadOK_gpuIdx {m : Machine V} {x : VName} {th : Bool} {d : Dim3} {b : Stmt} {σ : KEnv V} {ws : List (Int × V)} {fl : Bool} {v : Int}
    (hv : m.gpu th d = some v) (hx : σ x = none) (h : ThreadOK m b (σ.set x (.I v)) ws fl) :
    ThreadOK m (.seq (.gpuIdx x th d) b) σ ws fl := by
  obtain ⟨σ', r, e, hl, hr⟩ := h
  refine ⟨σ', r, ?_, ?_, hr⟩
  · simp [exec, hx, hv, e]
  · exact fun y v' hy => hl y v' (by rw [set_ne _ _ (by rintro rfl; rw [hx] at hy; cases hy)]; exact hy)

theorem genLoops_thread {m : Machine V} {t : Thread} {body : Stmt} {fl : Bool} : ∀ (ls : List LoopSched) (σ : KEnv V) (W : List Int → List (Int × V)),
    (∀ l ∈ ls, l.kind = .spatial) → (ls.map (·.lv.name)).Nodup → (∀ l ∈ ls, σ l.lv.name = none) →
    (fl = true → ∀ v ∈ tIdx t ls, W v = []) →
    (∀ v ∈ tIdx t ls, ThreadOK (onThread m t) body (σ.binds (ls.map (·.lv.name)) v) (W v) fl) →
    ThreadOK (onThread m t) (genLoops ls body) σ ((tIdx t ls).flatMap W) fl := by
  intro ls
  induction ls with
  | nil =>
    intro σ W _ _ _ _ h
    simpa [tIdx, genLoops, KEnv.binds] using h [] (by simp [tIdx])
  | cons l ls ih =>
    intro σ W hk hn hf hW h
    rw [List.map_cons, List.nodup_cons] at hn
    have hl := hk l (by simp)
    have hσ : ∀ v x, x ∈ ls → (σ.set l.lv.name v) x.lv.name = none := by
      intro v x hx
      rw [set_ne _ _ (by rintro e; exact hn.1 (List.mem_map.2 ⟨x, hx, e⟩))]
      exact hf x (by simp [hx])
    rw [genLoops, if_neg (by simp [hl])]
    have hseq : ∀ mode, (∀ v, v ∈ tIdx t (l :: ls) ↔ v ∈ (irange l.lv.extent).flatMap fun i => (tIdx t ls).map (i :: ·)) →
        ThreadOK (onThread m t) (.loop mode l.lv.name l.lv.extent (genLoops ls body)) σ
          (((irange l.lv.extent).flatMap fun i => (tIdx t ls).map (i :: ·)).flatMap W) fl := by
      intro mode hmem
      have := threadOK_loop (m := onThread m t) (mode := mode) (x := l.lv.name) (n := l.lv.extent) (b := genLoops ls body) (σ := σ)
        (W := fun i => (tIdx t ls).flatMap (fun v => W (i :: v))) (fl := fl) (hf l (by simp))
        (fun hfl i hi => by
          rw [List.flatMap_eq_nil_iff]
          exact fun v hv => hW hfl _ ((hmem _).2 (List.mem_flatMap.2 ⟨i, hi, List.mem_map.2 ⟨v, hv, rfl⟩⟩)))
        (fun i hi => ih _ (fun v => W (i :: v)) (fun x hx => hk x (by simp [hx])) hn.2 (hσ _)
          (fun hfl v hv => hW hfl _ ((hmem _).2 (List.mem_flatMap.2 ⟨i, hi, List.mem_map.2 ⟨v, hv, rfl⟩⟩)))
          (fun v hv => h (i :: v) ((hmem _).2 (List.mem_flatMap.2 ⟨i, hi, List.mem_map.2 ⟨v, hv, rfl⟩⟩))))
      have e : (((irange l.lv.extent).flatMap fun i => (tIdx t ls).map (i :: ·)).flatMap W) =
          (irange l.lv.extent).flatMap (fun i => (tIdx t ls).flatMap (fun v => W (i :: v))) := by
        rw [List.flatMap_assoc]
        congr 1; funext i; rw [List.flatMap_map]
      rw [e]; exact this
    have hgpu : ∀ th d v0, (onThread m t).gpu th d = some v0 → (∀ v, v ∈ tIdx t (l :: ls) ↔ v ∈ (tIdx t ls).map (v0 :: ·)) →
        ThreadOK (onThread m t) (.seq (.gpuIdx l.lv.name th d) (genLoops ls body)) σ (((tIdx t ls).map (v0 :: ·)).flatMap W) fl := by
      intro th d v0 hv0 hmem
      rw [List.flatMap_map]
      exact threadOK_gpuIdx hv0 (hf l (by simp)) (ih _ (fun v => W (v0 :: v)) (fun x hx => hk x (by simp [hx])) hn.2 (hσ _)
          (fun hfl v hv => hW hfl _ ((hmem _).2 (List.mem_map.2 ⟨v, hv, rfl⟩)))
          (fun v hv => h (v0 :: v) ((hmem _).2 (List.mem_map.2 ⟨v, hv, rfl⟩))))
    cases he : l.exec with
    | gpuBlock d =>
      have hm : ∀ v, v ∈ tIdx t (l :: ls) ↔ v ∈ (tIdx t ls).map (t.block d :: ·) := by intro v; rw [tIdx, he]
      have := hgpu false d (t.block d) (by simp [onThread]) hm
      simp only [tIdx, he]
      exact this
    | gpuThread d =>
      have hm : ∀ v, v ∈ tIdx t (l :: ls) ↔ v ∈ (tIdx t ls).map (t.thread d :: ·) := by intro v; rw [tIdx, he]
      have := hgpu true d (t.thread d) (by simp [onThread]) hm
      simp only [tIdx, he]
      exact this
    | sequential => simp only [tIdx, he]; exact hseq _ (by intro v; rw [tIdx, he])
    | parallel => simp only [tIdx, he]; exact hseq _ (by intro v; rw [tIdx, he])
    | vectorize => simp only [tIdx, he]; exact hseq _ (by intro v; rw [tIdx, he])
    | unroll f => simp only [tIdx, he]; exact hseq _ (by intro v; rw [tIdx, he])

theorem genLoops_noPar {ls : List LoopSched} {body : Stmt} (h : ∀ l ∈ ls, isPar l.exec = false) (hb : noPar body = true) : noPar (genLoops ls body) = true := by
  induction ls with
  | nil => exact hb
  | cons l ls ih =>
    have := ih (fun x hx => h x (by simp [hx]))
    have hl := h l (by simp)
    rw [genLoops]
    split
    · exact this
    · cases he : l.exec <;> simp_all [noPar, isPar]

/-! ### the GPU schedule -/

theorem index_at {s : Schedule} {lv : LoopVar} {l1 l2 : List LoopSched} {x : LoopSched} (h : s.loops = l1 ++ x :: l2) (hx : x.lv.name = lv.name)
    (h1 : ∀ l ∈ l1, l.lv.name ≠ lv.name) : Sched.index s lv = .ok l1.length := by
  unfold Sched.index
  have : s.loops.findIdx? (fun l => l.lv.name == lv.name) = some l1.length := by
    rw [h, List.findIdx?_append]
    have : l1.findIdx? (fun l => l.lv.name == lv.name) = none := by
      rw [List.findIdx?_eq_none_iff]; intro l hl; simpa using h1 l hl
    rw [this]
    simp [List.findIdx?_cons, hx]
  rw [this]; rfl

theorem setExec_at {s : Schedule} {lv : LoopVar} {e : LoopExec} {l1 l2 : List LoopSched} {x : LoopSched} (h : s.loops = l1 ++ x :: l2)
    (hx : x.lv.name = lv.name) (h1 : ∀ l ∈ l1, l.lv.name ≠ lv.name) :
    Sched.setExec s lv e = .ok { s with loops := l1 ++ { x with exec := e } :: l2 } := by
  simp only [Sched.setExec, index_at h hx h1, bind, Except.bind, pure, Except.pure, h]
  congr 2
  simp [List.getD_eq_getElem?_getD, List.set_append]

theorem setExec0 {lv : LoopVar} {k : LoopKind} {e0 e : LoopExec} {l : List LoopSched} {sp : List SplitLoop} :
    Sched.setExec ⟨⟨lv, k, e0⟩ :: l, sp⟩ lv e = .ok ⟨⟨lv, k, e⟩ :: l, sp⟩ :=
  setExec_at (l1 := []) (x := ⟨lv, k, e0⟩) (l2 := l) rfl rfl (by simp)
theorem setExec1 {x : LoopSched} {lv : LoopVar} {k : LoopKind} {e0 e : LoopExec} {l : List LoopSched} {sp : List SplitLoop} (h : x.lv.name ≠ lv.name) :
    Sched.setExec ⟨x :: ⟨lv, k, e0⟩ :: l, sp⟩ lv e = .ok ⟨x :: ⟨lv, k, e⟩ :: l, sp⟩ :=
  setExec_at (l1 := [x]) (x := ⟨lv, k, e0⟩) (l2 := l) rfl rfl (by simpa using h)
theorem setExec2 {x y : LoopSched} {lv : LoopVar} {k : LoopKind} {e0 e : LoopExec} {l : List LoopSched} {sp : List SplitLoop} (h : x.lv.name ≠ lv.name)
    (h2 : y.lv.name ≠ lv.name) : Sched.setExec ⟨x :: y :: ⟨lv, k, e0⟩ :: l, sp⟩ lv e = .ok ⟨x :: y :: ⟨lv, k, e⟩ :: l, sp⟩ :=
  setExec_at (l1 := [x, y]) (x := ⟨lv, k, e0⟩) (l2 := l) rfl rfl (by simpa using ⟨h, h2⟩)
theorem setExec3 {x y z : LoopSched} {lv : LoopVar} {k : LoopKind} {e0 e : LoopExec} {l : List LoopSched} {sp : List SplitLoop} (h : x.lv.name ≠ lv.name)
    (h2 : y.lv.name ≠ lv.name) (h3 : z.lv.name ≠ lv.name) :
    Sched.setExec ⟨x :: y :: z :: ⟨lv, k, e0⟩ :: l, sp⟩ lv e = .ok ⟨x :: y :: z :: ⟨lv, k, e⟩ :: l, sp⟩ :=
  setExec_at (l1 := [x, y, z]) (x := ⟨lv, k, e0⟩) (l2 := l) rfl rfl (by simpa using ⟨h, h2, h3⟩)

theorem split_at {s : Schedule} {lv : LoopVar} {f : Int} (hf : f ≠ 0) {l1 l2 : List LoopSched} {x : LoopSched} (h : s.loops = l1 ++ x :: l2)
    (hx : x.lv.name = lv.name) (h1 : ∀ l ∈ l1, l.lv.name ≠ lv.name) :
    Sched.split s lv f = .ok ((⟨.splitO lv.name, Sched.ceilDiv lv.extent f⟩, ⟨.splitI lv.name, f⟩),
      { loops := l1 ++ ⟨⟨.splitO lv.name, Sched.ceilDiv lv.extent f⟩, x.kind, .sequential⟩ :: ⟨⟨.splitI lv.name, f⟩, x.kind, .sequential⟩ :: l2
        splits := s.splits ++ [⟨lv, ⟨.splitO lv.name, Sched.ceilDiv lv.extent f⟩, ⟨.splitI lv.name, f⟩, f, decide (lv.extent % f ≠ 0)⟩] }) := by
  simp only [Sched.split, index_at h hx h1, bind, Except.bind, pure, Except.pure, h, if_neg hf]
  congr 3
  simp [List.getD_eq_getElem?_getD, List.drop_append]

/-- Loop variables of the output loops. -/
def lvOf (l : LoopIndex) : LoopVar := ⟨l.name, l.extent⟩

/-- The split variables. -/
def splitLoops (z : LoopVar) (d : Dim3) : List LoopSched :=
  [⟨⟨.splitO z.name, Sched.ceilDiv z.extent 256⟩, .spatial, .gpuBlock d⟩, ⟨⟨.splitI z.name, 256⟩, .spatial, .gpuThread .x⟩]

/-- One component of a size. -/
def dimOf (p : Int × Int × Int) : Dim3 → Int
  | .x => p.1
  | .y => p.2.1
  | .z => p.2.2

omit [Lim] in
theorem ceilDiv_blocks (n : Int) : Sched.ceilDiv n 256 = blocks n := by unfold Sched.ceilDiv blocks; omega

omit [Lim] in
theorem launchGrid_big (a b c : Int) (r : List Int) (z : Int) : launchGrid (a :: b :: c :: (r ++ [z])) = (blocks z, 1, 1) := by
  have h : (a :: b :: c :: (r ++ [z])).getLastD 0 = z := by
    rw [List.getLastD_eq_getLast?, show a :: b :: c :: (r ++ [z]) = (a :: b :: c :: r) ++ [z] from rfl, List.getLast?_append]; rfl
  cases r with
  | nil => rfl
  | cons x r => simp only [List.cons_append, launchGrid] at h ⊢; rw [h]

/-- What the automatic GPU schedule of a function with output variables `vs` and `z` looks like. -/
structure GpuForm (F : Func) (sch : Schedule) (vs : List LoopVar) (z : LoopVar) (pre rd : List LoopSched) (d : Dim3) : Prop where
  out : F.outLoops.map lvOf = vs ++ [z]
  loops : sch.loops = pre ++ (splitLoops z d ++ rd)
  splits : sch.splits = [⟨z, ⟨.splitO z.name, Sched.ceilDiv z.extent 256⟩, ⟨.splitI z.name, 256⟩, 256, decide (z.extent % 256 ≠ 0)⟩]
  lvs : pre.map (·.lv) = vs
  kind : ∀ l ∈ pre, l.kind = .spatial
  npar : ∀ l ∈ pre, isPar l.exec = false
  red : ∀ l ∈ rd, l.kind = .reduce
  redSeq : ∀ l ∈ rd, l.exec = .sequential
  dims : ∀ th d', launchDim sch th d' = dimOf (if th then launchBlock (vs.map (·.extent) ++ [z.extent]) else launchGrid (vs.map (·.extent) ++ [z.extent])) d'
  bound : (sch.loops.filterMap fun l => hwIndex l.exec).Nodup
  cover : ((threads sch).flatMap fun t => tIdx t (pre ++ splitLoops z d)).Perm (indices (vs.map (·.extent) ++ [Sched.ceilDiv z.extent 256, 256]))

theorem indices_append (s t : List Int) : indices (s ++ t) = (indices s).flatMap fun p => (indices t).map (p ++ ·) := by
  induction s with
  | nil => simp [indices]
  | cons a s ih =>
    simp only [List.cons_append, indices, ih, List.flatMap_assoc, List.flatMap_map, List.map_flatMap, List.map_map]
    rfl

theorem tIdx_append (t : Thread) (l1 l2 : List LoopSched) : tIdx t (l1 ++ l2) = (tIdx t l1).flatMap fun p => (tIdx t l2).map (p ++ ·) := by
  induction l1 with
  | nil => simp [tIdx]
  | cons l ls ih =>
    rw [List.cons_append, tIdx, tIdx]
    cases l.exec <;> simp only [ih, List.flatMap_assoc, List.flatMap_map, List.map_flatMap, List.map_map] <;> rfl

theorem tIdx_seq (t : Thread) (ls : List LoopSched) (h : ∀ l ∈ ls, l.exec = .sequential) : tIdx t ls = indices (ls.map (·.lv.extent)) := by
  induction ls with
  | nil => rfl
  | cons l ls ih =>
    rw [tIdx, h l (by simp), ih (fun x hx => h x (by simp [hx]))]; rfl

theorem tIdx_split (t : Thread) (z : LoopVar) (d : Dim3) : tIdx t (splitLoops z d) = [[t.block d, t.thread .x]] := rfl

theorem flatMap_swap {α β γ : Type} (l1 : List α) (l2 : List β) (f : α → β → List γ) :
    (l1.flatMap fun a => l2.flatMap fun b => f a b).Perm (l2.flatMap fun b => l1.flatMap fun a => f a b) := by
  rw [← Multiset.coe_eq_coe, ← Multiset.coe_bind, ← Multiset.coe_bind]
  simp only [← Multiset.coe_bind]
  exact Multiset.bind_bind _ _

theorem swap3 (I : List (List Int)) (J K : List Int) :
    (J.flatMap fun o => K.flatMap fun i => I.flatMap fun p => [p ++ [o, i]]).Perm (I.flatMap fun p => J.flatMap fun o => K.flatMap fun i => [p ++ [o, i]]) :=
  (List.Perm.flatMap_left _ (fun o _ => flatMap_swap K I (fun i p => [p ++ [o, i]]))).trans
    (flatMap_swap J I (fun o p => K.flatMap fun i => [p ++ [o, i]]))

theorem irange_one : irange 1 = [0] := rfl

theorem launchDim_seq {ls : List LoopSched} {th : Bool} {d : Dim3} {n : Int} (h : ∀ l ∈ ls, l.exec = .sequential) :
    ls.foldl (dimStep th d) n = n := by
  induction ls generalizing n with
  | nil => rfl
  | cons l ls ih =>
    have : dimStep th d n l = n := by simp [dimStep, h l (by simp)]
    rw [List.foldl_cons, this]
    exact ih (fun x hx => h x (by simp [hx]))

theorem spatials_init (F : Func) : Sched.spatials (Sched.init F) = F.outLoops.map lvOf := by
  simp only [Sched.spatials, Sched.init, List.filter_append, List.map_append]
  rw [List.filter_eq_self.2, List.filter_eq_nil_iff.2]
  · simp [lvOf]
  · simp
  · simp

theorem gpu_form {F : Func} (hn : F.outLoops.length ≠ 0) (hnd : (F.outLoops.map (·.name)).Nodup) (hsp : ∀ l ∈ F.outLoops, l.red = false) :
    ∃ sch vs z pre rd d, Sched.gpu (Sched.init F) = .ok sch ∧ GpuForm F sch vs z pre rd d := by
  obtain ⟨vs, z, hvz⟩ : ∃ vs z, F.outLoops.map lvOf = vs ++ [z] := by
    have : F.outLoops.map lvOf ≠ [] := by intro h; apply hn; simpa using congrArg List.length h
    exact ⟨_, _, (List.dropLast_concat_getLast this).symm⟩
  have hnd' : ((vs ++ [z]).map (·.name)).Nodup := by
    rw [← hvz, List.map_map]; exact hnd
  have hform : ∀ v ∈ vs ++ [z], ∃ p, v.name = .loop false p := by
    intro v hv
    rw [← hvz, List.mem_map] at hv
    obtain ⟨l, hl, rfl⟩ := hv
    exact ⟨l.pos, by simp [lvOf, LoopIndex.name, hsp l hl]⟩
  let rd : List LoopSched := (Algo.reducedVars F.expr).map (fun l => ⟨⟨l.name, l.extent⟩, .reduce, .sequential⟩)
  have hrd : ∀ l ∈ rd, l.kind = .reduce ∧ l.exec = .sequential := by
    intro l hl; obtain ⟨_, _, rfl⟩ := List.mem_map.1 hl; exact ⟨rfl, rfl⟩
  have hrdn : rd.filterMap (fun l => hwIndex l.exec) = [] := by
    rw [List.filterMap_eq_nil_iff]; intro l hl; rw [(hrd l hl).2]; rfl
  let mk : LoopVar → LoopSched := fun v => ⟨v, .spatial, .sequential⟩
  have hloops : (Sched.init F).loops = (vs ++ [z]).map mk ++ rd := by
    rw [← hvz]; simp [Sched.init, rd, mk, lvOf]
  have hspl : (Sched.init F).splits = [] := rfl
  have hS : Sched.spatials (Sched.init F) = vs ++ [z] := by rw [spatials_init, hvz]
  have hsplit := split_at (s := Sched.init F) (lv := z) (f := 256) (by decide) (l1 := vs.map mk) (x := mk z) (l2 := rd)
    (by rw [hloops]; simp) rfl (by
      intro l hl
      obtain ⟨v, hv, rfl⟩ := List.mem_map.1 hl
      rw [List.map_append, List.nodup_append] at hnd'
      exact hnd'.2.2 _ (List.mem_map.2 ⟨v, hv, rfl⟩) _ (by simp))
  rw [hspl, List.nil_append] at hsplit
  simp only [mk] at hsplit
  obtain ⟨pz, hpz⟩ := hform z (by simp)
  match vs, hvz, hnd', hform, hloops, hS, hsplit with
  | [], hvz, hnd', hform, hloops, hS, hsplit =>
    let s1 : Schedule := ⟨splitLoops z .x ++ rd, [⟨z, ⟨.splitO z.name, Sched.ceilDiv z.extent 256⟩, ⟨.splitI z.name, 256⟩, 256, decide (z.extent % 256 ≠ 0)⟩]⟩
    have hd' : ∀ th d, launchDim s1 th d = (if th = false ∧ d = .x then Sched.ceilDiv z.extent 256 else if th = true ∧ d = .x then 256 else 1) := by
      intro th d
      unfold launchDim
      simp only [s1, splitLoops, List.cons_append, List.nil_append, List.foldl_cons]
      rw [launchDim_seq (fun l hl => (hrd l hl).2)]
      cases th <;> cases d <;> simp [dimStep]
    refine ⟨s1, [], z, [], rd, .x, ?_, ⟨hvz, rfl, rfl, rfl, by simp, by simp, fun l hl => (hrd l hl).1, (fun l hl => (hrd l hl).2), ?_, ?_, ?_⟩⟩
    · simp only [Sched.gpu, hS, List.nil_append, Sched.blockSize, hsplit, bind, Except.bind, List.map_nil]
      rw [setExec0]
      simp only []
      rw [setExec1 (by simp)]
      rfl
    · intro th d'; rw [hd']; cases th <;> cases d' <;> simp [dimOf, launchGrid, launchBlock, ceilDiv_blocks]
    · show List.Nodup (List.filterMap (fun l : LoopSched => hwIndex l.exec) ((splitLoops z .x : List LoopSched) ++ rd))
      rw [List.filterMap_append, hrdn]; simp [splitLoops, hwIndex]
    · simp only [threads, hd', List.nil_append, tIdx_split]
      simp [irange_one, indices, List.flatMap_assoc, List.flatMap_map, List.map_flatMap]
  | [a], hvz, hnd', hform, hloops, hS, hsplit =>
    obtain ⟨pa, hpa⟩ := hform a (by simp)
    let s1 : Schedule := ⟨⟨a, .spatial, .gpuBlock .x⟩ :: (splitLoops z .y ++ rd), [⟨z, ⟨.splitO z.name, Sched.ceilDiv z.extent 256⟩, ⟨.splitI z.name, 256⟩, 256, decide (z.extent % 256 ≠ 0)⟩]⟩
    have hd' : ∀ th d, launchDim s1 th d = (if th = false ∧ d = .x then a.extent else if th = false ∧ d = .y then Sched.ceilDiv z.extent 256 else if th = true ∧ d = .x then 256 else 1) := by
      intro th d
      unfold launchDim
      simp only [s1, splitLoops, List.cons_append, List.nil_append, List.foldl_cons]
      rw [launchDim_seq (fun l hl => (hrd l hl).2)]
      cases th <;> cases d <;> simp [dimStep]
    refine ⟨s1, [a], z, [⟨a, .spatial, .gpuBlock .x⟩], rd, .y, ?_, ⟨hvz, rfl, rfl, rfl, by simp, by simp [isPar], fun l hl => (hrd l hl).1, (fun l hl => (hrd l hl).2), ?_, ?_, ?_⟩⟩
    · simp only [Sched.gpu, hS, List.cons_append, List.nil_append, Sched.blockSize, hsplit, bind, Except.bind, List.map_nil, List.map_cons]
      rw [setExec0]
      simp only []
      rw [setExec1 (by simp [hpa])]
      simp only []
      rw [setExec2 (by simp [hpa]) (by simp)]
      rfl
    · intro th d'; rw [hd']; cases th <;> cases d' <;> simp [dimOf, launchGrid, launchBlock, ceilDiv_blocks]
    · show List.Nodup (List.filterMap (fun l : LoopSched => hwIndex l.exec) ((([⟨a, .spatial, .gpuBlock .x⟩] : List LoopSched) ++ splitLoops z .y) ++ rd))
      rw [List.filterMap_append, hrdn]; simp [splitLoops, hwIndex]
    · simp only [threads, hd', tIdx_append, tIdx_split]
      simp [irange_one, indices, List.flatMap_assoc, List.flatMap_map, List.map_flatMap, tIdx]
  | [a, b], hvz, hnd', hform, hloops, hS, hsplit =>
    obtain ⟨pa, hpa⟩ := hform a (by simp)
    obtain ⟨pb, hpb⟩ := hform b (by simp)
    have hab : pa ≠ pb := by
      rintro rfl; simp [hpa, hpb] at hnd'
    let s1 : Schedule := ⟨⟨a, .spatial, .gpuBlock .x⟩ :: ⟨b, .spatial, .gpuBlock .y⟩ :: (splitLoops z .z ++ rd), [⟨z, ⟨.splitO z.name, Sched.ceilDiv z.extent 256⟩, ⟨.splitI z.name, 256⟩, 256, decide (z.extent % 256 ≠ 0)⟩]⟩
    have hd' : ∀ th d, launchDim s1 th d = (if th = false ∧ d = .x then a.extent else if th = false ∧ d = .y then b.extent else if th = false ∧ d = .z then Sched.ceilDiv z.extent 256 else if th = true ∧ d = .x then 256 else 1) := by
      intro th d
      unfold launchDim
      simp only [s1, splitLoops, List.cons_append, List.nil_append, List.foldl_cons]
      rw [launchDim_seq (fun l hl => (hrd l hl).2)]
      cases th <;> cases d <;> simp [dimStep]
    refine ⟨s1, [a, b], z, [⟨a, .spatial, .gpuBlock .x⟩, ⟨b, .spatial, .gpuBlock .y⟩], rd, .z, ?_, ⟨hvz, rfl, rfl, rfl, by simp, by simp [isPar], fun l hl => (hrd l hl).1, (fun l hl => (hrd l hl).2), ?_, ?_, ?_⟩⟩
    · simp only [Sched.gpu, hS, List.cons_append, List.nil_append, Sched.blockSize, hsplit, bind, Except.bind, List.map_nil, List.map_cons]
      rw [setExec0]
      simp only []
      rw [setExec1 (by simp [hpa, hpb, hab])]
      simp only []
      rw [setExec2 (by simp [hpa]) (by simp [hpb])]
      simp only []
      rw [setExec3 (by simp [hpa]) (by simp [hpb]) (by simp)]
      rfl
    · intro th d'; rw [hd']; cases th <;> cases d' <;> simp [dimOf, launchGrid, launchBlock, ceilDiv_blocks]
    · show List.Nodup (List.filterMap (fun l : LoopSched => hwIndex l.exec) ((([⟨a, .spatial, .gpuBlock .x⟩, ⟨b, .spatial, .gpuBlock .y⟩] : List LoopSched) ++ splitLoops z .z) ++ rd))
      rw [List.filterMap_append, hrdn]; simp [splitLoops, hwIndex]
    · simp only [threads, hd', tIdx_append, tIdx_split]
      simp [irange_one, indices, List.flatMap_assoc, List.flatMap_map, List.map_flatMap, tIdx]
  | a :: b :: c :: r, hvz, hnd', hform, hloops, hS, hsplit =>
    let vs := a :: b :: c :: r
    let s1 : Schedule := ⟨vs.map mk ++ (splitLoops z .x ++ rd), [⟨z, ⟨.splitO z.name, Sched.ceilDiv z.extent 256⟩, ⟨.splitI z.name, 256⟩, 256, decide (z.extent % 256 ≠ 0)⟩]⟩
    have hlast : (a :: b :: c :: r ++ [z]).getLastD default = z := by
      rw [List.getLastD_eq_getLast?, List.getLast?_append]; rfl
    have hseq : ∀ l ∈ vs.map mk, l.exec = .sequential := by
      intro l hl; obtain ⟨v, _, rfl⟩ := List.mem_map.1 hl; rfl
    have hd' : ∀ th d, launchDim s1 th d = (if th = false ∧ d = .x then Sched.ceilDiv z.extent 256 else if th = true ∧ d = .x then 256 else 1) := by
      intro th d
      unfold launchDim
      simp only [s1, splitLoops, List.foldl_append]
      rw [launchDim_seq hseq]
      simp only [List.foldl_cons, List.foldl_nil]
      rw [launchDim_seq (fun l hl => (hrd l hl).2)]
      cases th <;> cases d <;> simp [dimStep]
    refine ⟨s1, vs, z, vs.map mk, rd, .x, ?_, ⟨hvz, rfl, rfl, by simp [mk, Function.comp_def], ?_, ?_, fun l hl => (hrd l hl).1, (fun l hl => (hrd l hl).2), ?_, ?_, ?_⟩⟩
    · have hg : Sched.gpu (Sched.init F) = (do
          let ((o, i), s) ← Sched.split (Sched.init F) z 256
          let s ← Sched.setExec s o (.gpuBlock .x)
          Sched.setExec s i (.gpuThread .x)) := by
        simp only [Sched.gpu, hS]
        cases r <;> simp only [List.cons_append, List.nil_append, Sched.blockSize] at hlast ⊢ <;> rw [hlast]
      rw [hg]
      simp only [hsplit, bind, Except.bind]
      rw [setExec_at (l1 := vs.map mk) (x := ⟨⟨.splitO z.name, Sched.ceilDiv z.extent 256⟩, .spatial, .sequential⟩)
        (l2 := ⟨⟨.splitI z.name, 256⟩, .spatial, .sequential⟩ :: rd) rfl rfl (by
        intro l hl; obtain ⟨v, hv, rfl⟩ := List.mem_map.1 hl
        obtain ⟨p, hp⟩ := hform v (List.mem_append_left _ hv)
        simp [mk, hp])]
      simp only []
      rw [setExec_at (l1 := vs.map mk ++ [⟨⟨.splitO z.name, Sched.ceilDiv z.extent 256⟩, .spatial, .gpuBlock .x⟩])
        (x := ⟨⟨.splitI z.name, 256⟩, .spatial, .sequential⟩) (l2 := rd) (by simp) rfl (by
        intro l hl
        rcases List.mem_append.1 hl with hl | hl
        · obtain ⟨v, hv, rfl⟩ := List.mem_map.1 hl
          obtain ⟨p, hp⟩ := hform v (List.mem_append_left _ hv)
          simp [mk, hp]
        · simp at hl; subst hl; simp)]
      simp [s1, splitLoops]
    · intro l hl; obtain ⟨v, _, rfl⟩ := List.mem_map.1 hl; rfl
    · intro l hl; rw [hseq l hl]; rfl
    · rw [show vs.map (·.extent) ++ [z.extent] = a.extent :: b.extent :: c.extent :: (r.map (·.extent) ++ [z.extent]) by simp [vs], launchGrid_big]
      intro th d'; rw [hd']; cases th <;> cases d' <;> simp [dimOf, launchBlock, ceilDiv_blocks]
    · have : (vs.map mk).filterMap (fun l => hwIndex l.exec) = [] := by
        rw [List.filterMap_eq_nil_iff]; intro l hl; rw [hseq l hl]; rfl
      simp only [s1, List.filterMap_append, this, hrdn]
      simp [splitLoops, hwIndex]
    · simp only [threads, hd', tIdx_append, tIdx_split, tIdx_seq _ _ hseq, indices_append]
      have he : (vs.map mk).map (·.lv.extent) = vs.map (·.extent) := by simp [mk, Function.comp_def]
      rw [he]
      generalize indices (vs.map (·.extent)) = I
      refine List.Perm.trans (List.Perm.of_eq ?_) ((swap3 I (irange (Sched.ceilDiv z.extent 256)) (irange 256)).trans (List.Perm.of_eq ?_))
      · simp [irange_one, List.flatMap_assoc, List.flatMap_map, List.map_eq_flatMap]
      · simp [indices, List.flatMap_map, List.flatMap_assoc, List.map_eq_flatMap]

/-! ### the whole launch -/

theorem launch_ok {m : Machine V} {sch : Schedule} {body : Stmt} {W : Thread → List (Int × V)} {fl : Thread → Bool} (hb : noPar body = true)
    (h : ∀ t ∈ threads sch, ThreadOK (onThread m t) body (fun _ => none) (W t) (fl t)) :
    (∀ r, launch m sch body r → ∃ ws, r = some ws ∧ ws.Perm ((threads sch).flatMap W)) ∧ ∃ r, launch m sch body r := by
  constructor
  · rintro r ⟨f, hf, h1⟩
    have hf' : ∀ t ∈ threads sch, ∃ σ' rt, f t = some ⟨σ', W t, rt⟩ := by
      intro t ht
      obtain ⟨σ', rt, e, _, _⟩ := h t ht
      exact ⟨σ', rt, by rw [(par_det hb _ _).1 (hf t ht), e]⟩
    rcases h1 with ⟨_, ws, hi, rfl⟩ | ⟨hn, _⟩
    · refine ⟨ws, rfl, hi.perm.trans ?_⟩
      rw [← List.flatMap_def]
      apply List.Perm.flatMap_left
      intro t ht
      obtain ⟨σ', rt, e⟩ := hf' t ht
      rw [e]; exact List.Perm.refl _
    · exact absurd (fun t ht => by obtain ⟨σ', rt, e⟩ := hf' t ht; rw [e]; rfl) hn
  · refine ⟨some ((threads sch).map fun t => writesOf (exec (onThread m t) body (fun _ => none))).flatten, fun t => exec (onThread m t) body (fun _ => none),
      fun t _ => (par_det hb _ _).2 rfl, Or.inl ⟨fun t ht => ?_, _, Interleave.flatten _, rfl⟩⟩
    obtain ⟨σ', rt, e, _, _⟩ := h t ht
    show (exec (onThread m t) body (fun _ => none)).isSome = true
    rw [e]; rfl

theorem tIdx_length {t : Thread} {ls : List LoopSched} : ∀ v ∈ tIdx t ls, v.length = ls.length := by
  induction ls with
  | nil => simp [tIdx]
  | cons l ls ih =>
    intro v hv
    rw [tIdx] at hv
    cases he : l.exec <;> simp only [he, List.mem_map, List.mem_flatMap] at hv
    case gpuBlock | gpuThread => obtain ⟨w, hw, rfl⟩ := hv; simp [ih w hw]
    all_goals obtain ⟨_, _, w, hw, rfl⟩ := hv; simp [ih w hw]

omit [Lim] in
theorem validIdx_append {s t p q : List Int} (h : p.length = s.length) : ValidIdx (s ++ t) (p ++ q) ↔ ValidIdx s p ∧ ValidIdx t q := by
  induction s generalizing p with
  | nil => have := List.eq_nil_of_length_eq_zero h; subst this; simp [ValidIdx]
  | cons a s ih => cases p with
    | nil => simp at h
    | cons x p => simp only [List.cons_append, ValidIdx, ih (by simpa using h), and_assoc]

theorem ThreadOK.of_nest {m : Machine V} {s : Stmt} {σ : KEnv V} {ws : List (Int × V)} {fl : Bool} (h : NestOK m s σ ws) : ThreadOK m s σ ws fl := by
  obtain ⟨σ', e, hl⟩ := h.seq
  exact ⟨σ', false, e, hl, by simp⟩

theorem ceilDiv_mul_lt {e o f : Int} (hf : 0 < f) (h : o < Sched.ceilDiv e f) : o * f < e := by
  unfold Sched.ceilDiv at h
  have h1 : (-e) / f < -o := by omega
  have h2 := (Int.ediv_lt_iff_lt_mul hf).1 h1
  rw [Int.neg_mul] at h2
  omega

theorem kernel_gpu {g : Graph V} {t : Tbl} {F : Func} {m : Machine V} {a : Nat} (hwf : WF g) (hE : EntryOK g a F) (hr : RefsOK g t F)
    (hm : MemOK g (argsOf F) m (denRd m.A g)) (hlen : (m.outLen : Int) = prod (g.shape a)) (hnn : NonNeg (g.shape a)) (n : Nat)
    (hfit : Fit (room (g.shape a) + 255) := by exact fit_none) :
    ∃ sch K n', Sched.schedule true F = .ok sch ∧ codegen g t F sch (argsOf F) n = .ok (K, n') ∧ n ≤ n' ∧
      (∀ r, launch m sch K.body r → ∃ ws, r = some ws ∧ ws.Perm (storesOf m.A g a)) ∧ ∃ r, launch m sch K.body r := by
  obtain ⟨s, k, n', hg, hn⟩ := genRoot_gen (dt := F.outDtype) hE.wf (argsOK_of hr) n
  have hmt : ∀ th, MemOK g (argsOf F) (onThread m th) (denRd (onThread m th).A g) := fun th => ⟨hm.lim, hm.fnc, hm.buf⟩
  have hfit' : Fit (room (g.shape a)) := hfit.of_le (by have := room_ge_one (g.shape a); omega) (by omega)
  have hnp : noPar (.seq s (.store (flatIdx F.outShape (F.outLoops.map (fun l => KI.var l.name))) k)) = true := by simp [noPar, genD_noPar hg]
  by_cases h0 : F.outLoops.length = 0
  · have hol : F.outLoops = [] := List.eq_nil_of_length_eq_zero h0
    have hsh : g.shape a = [] := by
      have := outLoops_length g a
      rw [← hE.loops, h0] at this
      exact List.eq_nil_of_length_eq_zero (by simpa [Graph.ndim] using this.symm)
    have hsch : Sched.schedule true F = .ok (Sched.init F) := by
      simp [Sched.schedule, Sched.gpu, spatials_init, hol, pure, Except.pure]
    refine ⟨Sched.init F, _, n', hsch, by simp only [codegen, hg, bind, Except.bind, pure, Except.pure]; rfl, hn, ?_⟩
    have hl : (Sched.init F).loops = (Algo.reducedVars F.expr).map (fun l => ⟨⟨l.name, l.extent⟩, .reduce, .sequential⟩) := by simp [Sched.init, hol]
    have hrd : ∀ l ∈ (Sched.init F).loops, l.kind = .reduce := by
      rw [hl]; intro l hl; obtain ⟨_, _, rfl⟩ := List.mem_map.1 hl; rfl
    have hsq : ∀ l ∈ (Sched.init F).loops, l.exec = .sequential := by
      rw [hl]; intro l hl; obtain ⟨_, _, rfl⟩ := List.mem_map.1 hl; rfl
    have hgl : ∀ b, genLoops (Sched.init F).loops b = b := by
      intro b
      have := genLoops_reduce (body := b) (ls := []) hrd
      simpa [genLoops] using this
    simp only [hgl]
    have hth : (threads (Sched.init F)).length = 1 := by
      have : ∀ th d, launchDim (Sched.init F) th d = 1 := fun th d => launchDim_seq hsq
      simp [threads, this, irange_one]
    have := launch_ok (m := m) (sch := Sched.init F) (body := .seq (splitInits (Sched.init F).splits) (.seq (splitGuards (Sched.init F).splits)
        (.seq s (.store (flatIdx F.outShape (F.outLoops.map (fun l => KI.var l.name))) k)))) (W := fun _ => storesOf m.A g a) (fl := fun _ => false)
      (by simp only [noPar, Bool.and_eq_true]; exact ⟨rfl, rfl, by simpa [noPar] using hnp⟩)
      (fun th _ => ThreadOK.of_nest (by
        have h1 := elem_ok (idx := []) (σ := fun _ => none) hwf hE hr (hmt th) hlen hg (by rw [hsh]; trivial) (by
          intro k hk; simp [Graph.ndim, hsh] at hk) ⟨fun _ _ => rfl, rfl, fun _ => rfl⟩ hfit'
        have h2 : storesOf m.A g a = [(ravel (g.shape a) [], (den m.A g a).get [])] := by simp [storesOf, hsh, indices]
        rw [h2]
        exact NestOK.skip_seq (NestOK.skip_seq h1)))
    obtain ⟨th, hth⟩ := List.length_eq_one_iff.1 hth
    rw [hth] at this
    simpa using this
  · have hnames : F.outLoops.map (·.name) = (List.range (g.ndim a)).map (VName.loop false) := by rw [hE.loops, outLoops_names]
    obtain ⟨sch, vs, z, pre, rd, d, hsch, hf⟩ := gpu_form (F := F) h0 (by rw [hnames]; exact loopNames_nodup _) (by
      rw [hE.loops]; intro l hl; exact (mem_outLoops hl).2)
    refine ⟨sch, _, n', by simpa [Sched.schedule] using hsch, by simp only [codegen, hg, bind, Except.bind, pure, Except.pure]; rfl, hn, ?_⟩
    have hvn : (vs ++ [z]).map (·.name) = (List.range (g.ndim a)).map (VName.loop false) := by
      rw [← hf.out, ← hnames, List.map_map]; rfl
    have hve : (vs ++ [z]).map (·.extent) = g.shape a := by
      rw [← hf.out, List.map_map, ← outLoops_extents, ← hE.loops]; rfl
    have hlenv : vs.length + 1 = g.ndim a := by
      have := congrArg List.length hvn; simpa using this
    have hprelen : pre.length = vs.length := by rw [← hf.lvs]; simp
    have hpn : pre.map (·.lv.name) = (List.range vs.length).map (VName.loop false) := by
      have h1 : pre.map (·.lv.name) = vs.map (·.name) := by rw [← hf.lvs]; simp [Function.comp_def]
      rw [List.map_append, ← hlenv, List.range_succ, List.map_append] at hvn
      rw [h1]
      exact (List.append_inj hvn (by simp)).1
    have hzn : z.name = .loop false vs.length := by
      rw [List.map_append, ← hlenv, List.range_succ, List.map_append] at hvn
      have := (List.append_inj hvn (by simp)).2
      simpa using this
    have hze : 0 ≤ z.extent := by
      rw [List.map_append] at hve
      exact hnn _ (by rw [← hve]; simp)
    have hshape : g.shape a = vs.map (·.extent) ++ [z.extent] := by rw [← hve]; simp
    let w : List Int → Int × V := fun idx => (ravel (g.shape a) idx, (den m.A g a).get idx)
    let W : List Int → List (Int × V) := fun v =>
      if geti v vs.length * 256 + geti v (vs.length + 1) < z.extent then
        [w (v.take vs.length ++ [geti v vs.length * 256 + geti v (vs.length + 1)])] else []
    have hW : ∀ (p : List Int) (o i : Int), p.length = vs.length → W (p ++ [o, i]) = if o * 256 + i < z.extent then [w (p ++ [o * 256 + i])] else [] := by
      intro p o i hp
      have e1 : geti (p ++ [o, i]) vs.length = o := by rw [← hp]; simp [geti, List.getD_eq_getElem?_getD]
      have e2 : geti (p ++ [o, i]) (vs.length + 1) = i := by rw [← hp]; simp [geti, List.getD_eq_getElem?_getD]
      have e3 : (p ++ [o, i]).take vs.length = p := by rw [← hp]; simp
      simp only [W, e1, e2, e3]
    let fl : Thread → Bool := fun th => !decide (th.block d * 256 + th.thread .x < z.extent)
    have hgl : ∀ b, genLoops sch.loops b = genLoops (pre ++ splitLoops z d) b := by
      intro b; rw [hf.loops, ← List.append_assoc]; exact genLoops_reduce hf.red
    simp only [hgl]
    have htot : ((threads sch).flatMap fun th => (tIdx th (pre ++ splitLoops z d)).flatMap W).Perm (storesOf m.A g a) := by
      rw [← List.flatMap_assoc]
      refine (hf.cover.flatMap_right W).trans (List.Perm.of_eq ?_)
      have h1 : (indices (vs.map (·.extent) ++ [Sched.ceilDiv z.extent 256, 256])).flatMap W =
          (indices (vs.map (·.extent))).flatMap fun p => (irange (Sched.ceilDiv z.extent 256)).flatMap fun o => (irange 256).flatMap fun i => W (p ++ [o, i]) := by
        rw [indices_append]
        simp only [indices, List.flatMap_assoc, List.flatMap_map, List.map_eq_flatMap, List.flatMap_cons, List.flatMap_nil, List.append_nil, List.nil_append]
      rw [h1]
      unfold storesOf
      rw [hshape, indices_append, List.map_flatMap]
      apply List.flatMap_congr
      intro p hp
      have hpl : p.length = vs.length := by rw [(mem_indices.1 hp).length]; simp
      have := split_range (e := z.extent) (f := 256) hze (by decide) (fun x => w (p ++ [x]))
      simp only [hW _ _ _ hpl]
      rw [this]
      simp only [indices, List.map_eq_flatMap, List.flatMap_assoc, List.flatMap_cons, List.flatMap_nil, List.append_nil, w, hshape]
    have key := launch_ok (m := m) (sch := sch) (body := genLoops (pre ++ splitLoops z d) (.seq (splitInits sch.splits) (.seq (splitGuards sch.splits)
        (.seq s (.store (flatIdx F.outShape (F.outLoops.map (fun l => KI.var l.name))) k))))) (W := fun th => (tIdx th (pre ++ splitLoops z d)).flatMap W) (fl := fl)
      (by
        apply genLoops_noPar
        · intro l hl
          rcases List.mem_append.1 hl with hl | hl
          · exact hf.npar l hl
          · simp only [splitLoops, List.mem_cons, List.not_mem_nil, or_false] at hl
            rcases hl with rfl | rfl <;> rfl
        · simp only [hf.splits, splitInits, splitGuards, noPar, Bool.true_and]
          split <;> simpa [noPar] using hnp)
      (by
        intro th hth
        have hmemv : ∀ v ∈ tIdx th (pre ++ splitLoops z d), ∃ p, v = p ++ [th.block d, th.thread .x] ∧ p.length = vs.length ∧
            ValidIdx (vs.map (·.extent)) p ∧ (0 ≤ th.block d ∧ th.block d < Sched.ceilDiv z.extent 256) ∧ (0 ≤ th.thread .x ∧ th.thread .x < 256) := by
          intro v hv
          have hv2 : v ∈ indices (vs.map (·.extent) ++ [Sched.ceilDiv z.extent 256, 256]) := hf.cover.subset (List.mem_flatMap.2 ⟨th, hth, hv⟩)
          rw [tIdx_append, tIdx_split] at hv
          simp only [List.mem_flatMap, List.map_cons, List.map_nil, List.mem_singleton] at hv
          obtain ⟨p, hp, rfl⟩ := hv
          have hpl : p.length = vs.length := by rw [tIdx_length p hp, hprelen]
          rw [mem_indices, validIdx_append (by simpa using hpl)] at hv2
          exact ⟨p, rfl, hpl, hv2.1, hv2.2.1, hv2.2.2.1⟩
        apply genLoops_thread
        · intro l hl
          rcases List.mem_append.1 hl with hl | hl
          · exact hf.kind l hl
          · simp only [splitLoops, List.mem_cons, List.not_mem_nil, or_false] at hl
            rcases hl with rfl | rfl <;> rfl
        · rw [List.map_append, hpn]
          simp only [splitLoops, List.map_cons, List.map_nil]
          rw [List.nodup_append]
          refine ⟨loopNames_nodup _, by simp, ?_⟩
          intro x hx y hy
          simp only [List.mem_map] at hx
          obtain ⟨_, _, rfl⟩ := hx
          simp only [List.mem_cons, List.not_mem_nil, or_false] at hy
          rcases hy with rfl | rfl <;> simp
        · intro l _; rfl
        · intro hfl v hv
          obtain ⟨p, rfl, hpl, _⟩ := hmemv v hv
          rw [hW _ _ _ hpl, if_neg (by simpa [fl] using hfl)]
        · intro v hv
          obtain ⟨p, rfl, hpl, hpv, hob, hib⟩ := hmemv v hv
          rw [hW _ _ _ hpl]
          have hnm : (pre ++ splitLoops z d).map (·.lv.name) = (List.range vs.length).map (VName.loop false) ++ [VName.splitO z.name, VName.splitI z.name] := by
            rw [List.map_append, hpn]; rfl
          rw [hnm]
          have hnd : ((List.range vs.length).map (VName.loop false) ++ [VName.splitO z.name, VName.splitI z.name]).Nodup := by
            rw [List.nodup_append]
            refine ⟨loopNames_nodup _, by simp, ?_⟩
            intro x hx y hy
            simp only [List.mem_map] at hx
            obtain ⟨_, _, rfl⟩ := hx
            simp only [List.mem_cons, List.not_mem_nil, or_false] at hy
            rcases hy with rfl | rfl <;> simp
          generalize hσ : KEnv.binds (fun _ => (none : Option (Val V))) ((List.range vs.length).map (VName.loop false) ++ [VName.splitO z.name, VName.splitI z.name])
            (p ++ [th.block d, th.thread .x]) = σ
          have hget : ∀ j (hj : j < vs.length + 2), σ (((List.range vs.length).map (VName.loop false) ++ [VName.splitO z.name, VName.splitI z.name])[j]'(by simpa using hj)) =
              some (.I (geti (p ++ [th.block d, th.thread .x]) j)) := by
            intro j hj
            rw [← hσ]
            exact binds_getElem hnd (by simp [hpl]) _
          have hnone : ∀ y, y ∉ ((List.range vs.length).map (VName.loop false) ++ [VName.splitO z.name, VName.splitI z.name]) → σ y = none := by
            intro y hy; rw [← hσ, binds_not_mem hy]
          have hso : σ (.splitO z.name) = some (.I (th.block d)) := by
            have := hget vs.length (by omega)
            simp only [List.getElem_append, List.length_map, List.length_range, Nat.lt_irrefl, dite_false, Nat.sub_self, List.getElem_cons_zero] at this
            rw [this, ← hpl]; simp [geti, List.getD_eq_getElem?_getD]
          have hsi : σ (.splitI z.name) = some (.I (th.thread .x)) := by
            have := hget (vs.length + 1) (by omega)
            simp [List.getElem_append] at this
            rw [this, ← hpl]; simp [geti, List.getD_eq_getElem?_getD]
          have hz0 : σ z.name = none := hnone _ (by rw [hzn]; simp)
          let x := th.block d * 256 + th.thread .x
          have hx0 : 0 ≤ x := by simp only [x]; omega
          have hxf : Fit x := hfit.of_le hx0 (by
            have h1 := ceilDiv_mul_lt (e := z.extent) (f := 256) (by decide) hob.2
            have h2 : z.extent ≤ room (g.shape a) := (room_mem (by rw [hshape]; simp)).1
            simp only [x]; omega)
          have hof : Fit (th.block d * 256) := hxf.of_le (by omega) (by simp only [x]; omega)
          have hLm : LimOK m.ar := hm.lim
          have hmul : iarith m.ar .Mul (th.block d) 256 = some (th.block d * 256) := op_agree hLm (iop_some rfl hof)
          have hadd : iarith m.ar .Add (th.block d * 256) (th.thread .x) = some x := op_agree hLm (iop_some rfl hxf)
          have hge : iarith m.ar .Le z.extent x = some (if z.extent ≤ x then 1 else 0) := op_agree hLm (iop_some rfl (hfit'.bool _))
          have hinit : exec (onThread m th) (splitInits sch.splits) σ = some ⟨σ.set z.name (.I x), [], false⟩ := by
            simp only [hf.splits, splitInits, exec, hz0, evalKI, hso, hsi]
            simp [onThread, hmul, hadd]
          have hguard : exec (onThread m th) (splitGuards sch.splits) (σ.set z.name (.I x)) =
              some ⟨σ.set z.name (.I x), [], decide (z.extent ≤ x)⟩ := by
            simp only [hf.splits, splitGuards]
            by_cases hd : z.extent % 256 = 0
            · have hlt := split_exact (e := z.extent) (f := 256) (o := th.block d) (i := th.thread .x) (by decide) hd hob.2 hib.2
              simp only [hd]
              have : decide (z.extent ≤ x) = false := by simp only [x, decide_eq_false_iff_not]; omega
              simp [exec, this]
            · simp only [ne_eq, hd, not_false_eq_true, decide_true, if_true, exec, evalKI, set_same]
              by_cases hle : z.extent ≤ x
              · simp [onThread, hge, hle]
              · simp [onThread, hge, hle, exec]
          have hLe : Le σ (σ.set z.name (.I x)) := by
            intro y v hy
            rw [set_ne _ _ (by rintro rfl; rw [hz0] at hy; cases hy)]; exact hy
          by_cases hlt : th.block d * 256 + th.thread .x < z.extent
          · rw [if_pos hlt]
            have hvi : ValidIdx (g.shape a) (p ++ [x]) := by
              rw [hshape, validIdx_append (by simpa using hpl)]
              exact ⟨hpv, ⟨hx0, hlt⟩, trivial⟩
            have h1 := elem_ok (idx := p ++ [x]) (σ := σ.set z.name (.I x)) hwf hE hr (hmt th) hlen hg hvi (by
                intro j hj
                rw [← hlenv] at hj
                by_cases hjv : j = vs.length
                · subst hjv
                  rw [hzn, set_same, ← hpl]; simp [geti, List.getD_eq_getElem?_getD]
                · have hjl : j < vs.length := by omega
                  rw [set_ne _ _ (by rw [hzn]; simpa using hjv)]
                  have := hget j (by omega)
                  rw [List.getElem_append_left (by simpa using hjl)] at this
                  simp only [List.getElem_map, List.getElem_range] at this
                  rw [this]
                  simp only [geti, List.getD_eq_getElem?_getD]
                  rw [List.getElem?_append_left (by omega), List.getElem?_append_left (by omega)])
              ⟨fun j _ => by rw [set_ne _ _ (by rw [hzn]; simp), hnone _ (by simp)], by rw [set_ne _ _ (by rw [hzn]; simp), hnone _ (by simp)],
                fun q => by rw [set_ne _ _ (by rw [hzn]; simp), hnone _ (by simp)]⟩ hfit'
            obtain ⟨σ', e, hl⟩ := h1.seq
            refine ⟨σ', false, ?_, fun y v hy => hl y v (hLe y v hy), by simp⟩
            rw [exec, hinit]
            simp only [Option.bind_eq_bind, Option.bind_some, Bool.false_eq_true, if_false]
            rw [exec, hguard]
            have : decide (z.extent ≤ x) = false := by simp only [x, decide_eq_false_iff_not]; omega
            simp only [this, Option.bind_eq_bind, Option.bind_some, Bool.false_eq_true, if_false, e, pure, List.nil_append]
            rfl
          · rw [if_neg hlt]
            refine ⟨σ.set z.name (.I x), true, ?_, hLe, fun _ => by simpa [fl] using hlt⟩
            rw [exec, hinit]
            simp only [Option.bind_eq_bind, Option.bind_some, Bool.false_eq_true, if_false]
            rw [exec, hguard]
            have : decide (z.extent ≤ x) = true := by simp only [x, decide_eq_true_eq]; omega
            simp only [this, Option.bind_eq_bind, Option.bind_some, if_true, pure, List.nil_append])
    refine ⟨fun r hr => ?_, key.2⟩
    obtain ⟨ws, e, hp⟩ := key.1 r hr
    exact ⟨ws, e, hp.trans htot⟩

/-! ### launch dimensions -/

theorem launchDim_gpu {g : Graph V} {F : Func} {a : Nat} {sch : Schedule} (hE : EntryOK g a F) (h : Sched.schedule true F = .ok sch) (th : Bool) (d : Dim3) :
    launchDim sch th d = dimOf (if th then launchBlock (g.shape a) else launchGrid (g.shape a)) d := by
  by_cases h0 : F.outLoops.length = 0
  · have hol : F.outLoops = [] := List.eq_nil_of_length_eq_zero h0
    have hsh : g.shape a = [] := by
      have := outLoops_length g a
      rw [← hE.loops, h0] at this
      exact List.eq_nil_of_length_eq_zero (by simpa [Graph.ndim] using this.symm)
    have hsch : Sched.schedule true F = .ok (Sched.init F) := by
      simp [Sched.schedule, Sched.gpu, spatials_init, hol, pure, Except.pure]
    obtain rfl : Sched.init F = sch := by rw [hsch] at h; exact Except.ok.inj h
    have hsq : ∀ l ∈ (Sched.init F).loops, l.exec = .sequential := by
      simp only [Sched.init, hol, List.map_nil, List.nil_append]
      intro l hl; obtain ⟨_, _, rfl⟩ := List.mem_map.1 hl; rfl
    rw [show launchDim (Sched.init F) th d = 1 from launchDim_seq hsq, hsh]
    cases th <;> cases d <;> rfl
  · have hnames : F.outLoops.map (·.name) = (List.range (g.ndim a)).map (VName.loop false) := by rw [hE.loops, outLoops_names]
    obtain ⟨sch', vs, z, pre, rd, d', hsch, hf⟩ := gpu_form (F := F) h0 (by rw [hnames]; exact loopNames_nodup _) (by
      rw [hE.loops]; intro l hl; exact (mem_outLoops hl).2)
    obtain rfl : sch' = sch := by rw [show Sched.schedule true F = .ok sch' by simpa [Sched.schedule] using hsch] at h; exact Except.ok.inj h
    have hve : (vs ++ [z]).map (·.extent) = g.shape a := by
      rw [← hf.out, List.map_map, ← outLoops_extents, ← hE.loops]; rfl
    rw [hf.dims, ← hve, List.map_append]; rfl

omit [Lim] in
theorem launchBlock_ok (s : List Int) : BlockOK (launchBlock s) := by cases s <;> simp [launchBlock, BlockOK]

theorem launchOK_iff {g : Graph V} {F : Func} {a : Nat} {sch : Schedule} (hE : EntryOK g a F) (h : Sched.schedule true F = .ok sch) :
    launchOK sch = true ↔ GridOK (launchGrid (g.shape a)) := by
  have hb := launchBlock_ok (g.shape a)
  unfold launchOK
  simp only [launchDim_gpu hE h, dimOf, decide_eq_true_eq, if_true, if_false, Bool.false_eq_true]
  unfold GridOK; unfold BlockOK at hb
  constructor
  · rintro ⟨a, b, c, d, e, f, _⟩; exact ⟨⟨a, b⟩, ⟨c, d⟩, e, f⟩
  · rintro ⟨⟨a, b⟩, ⟨c, d⟩, e, f⟩; exact ⟨a, b, c, d, e, f, hb.1.1, hb.1.2, hb.2.1.1, hb.2.1.2, hb.2.2.1.1, hb.2.2.1.2, hb.2.2.2⟩

end Whale
