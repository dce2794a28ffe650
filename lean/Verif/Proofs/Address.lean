import Verif.Spec.Address
import Verif.Proofs.CollectSim
import Verif.Proofs.SourceFrame
import Verif.Proofs.Switch
/-
For C69: sessions with device pointers simulate sessions without.
-/
namespace Whale
open Mat Hist Algo
variable {V : Type}

/-! #### calls that do not touch the device -/

/-- The world with other device memory. -/
def World.dv (w : World V) (d : Nat → Option (List V)) : World V := { w with dev := d }

theorem dv_fillCpu (A : Scalar V) (w : World V) (d) (i : Nat) : fillCpu A (w.dv d) i = (fillCpu A w i).dv d := by
  unfold fillCpu
  have : cpuBuf (w.dv d) i = cpuBuf w i := rfl
  rw [this]
  cases cpuBuf w i <;> rfl

theorem dv_fillCpus (A : Scalar V) (d) (l : List Nat) (w : World V) : l.foldl (fillCpu A) (w.dv d) = (l.foldl (fillCpu A) w).dv d := by
  induction l generalizing w with
  | nil => rfl
  | cons i l ih => rw [List.foldl_cons, List.foldl_cons, dv_fillCpu, ih]

theorem dv_invoke {b : Backend V} (hg : b.isGpu = false) (w : World V) (d) (sch : Schedule) (K : Kernel) (out : Nat) (ins : List Nat) :
    invoke b (w.dv d) sch K out ins = (invoke b w sch K out ins).map (·.dv d) := by
  unfold invoke
  by_cases h1 : out ∈ ins
  · simp only [h1, if_true]; rfl
  by_cases h2 : K.params.length ≠ (out :: ins).length
  · simp only [h1, if_false, if_pos h2]; rfl
  simp only [h1, if_false, if_neg h2, hg, Bool.false_eq_true]
  rw [dv_fillCpus]
  generalize (out :: ins).foldl (fillCpu b.A) w = w1
  have h3 : ∀ i, cpuBuf (w1.dv d) i = cpuBuf w1 i := fun _ => rfl
  have h4 : ins.mapM (cpuBuf (w1.dv d)) = ins.mapM (cpuBuf w1) := rfl
  rw [h3, h4]
  split
  · rename_i o is ho his
    simp only [World.dv]
    cases hr : b.run w1.tick (machine b K o is) sch K.body with
    | none => simp only [hr]; rfl
    | some ws => simp only [hr]; rfl
  · rfl

theorem dv_accum (d) (w : World V) (p : Nat × Nat) : Bwd.accum (w.dv d) p = (Bwd.accum w p).map (·.dv d) := by
  unfold Bwd.accum
  have h1 : (w.dv d).grad p.1 = w.grad p.1 := rfl
  have hg : (w.dv d).g = w.g := rfl
  rw [h1, hg]
  cases w.grad p.1 with
  | none => rfl
  | some o => simp only [bind, Except.bind]; cases ND.binary w.g .Add o p.2 <;> rfl

theorem dv_visit (d) (A : Scalar V) (w : World V) (t : Nat) : Bwd.visit A (w.dv d) t = (Bwd.visit A w t).map (·.dv d) := by
  unfold Bwd.visit
  have h1 : (w.dv d).grad t = w.grad t := rfl
  have hg : (w.dv d).g = w.g := rfl
  rw [h1, hg]
  cases w.grad t with
  | none => rfl
  | some gr =>
    simp only [bind, Except.bind]
    cases Bwd.rule A w.g t gr with
    | error e => rfl
    | ok q => exact foldlM_map (k := fun w => World.dv w d) (dv_accum d) _ { w with g := q.2 }

theorem dv_seed (d) (A : Scalar V) (w : World V) (y : Nat) : Bwd.seed A (w.dv d) y = (Bwd.seed A w y).dv d := by
  unfold Bwd.seed
  have h1 : (w.dv d).grad y = w.grad y := rfl
  rw [h1]
  cases w.grad y <;> rfl

theorem dv_backward (d) (A : Scalar V) (w : World V) (y : Nat) : Bwd.backward A (w.dv d) y = (Bwd.backward A w y).map (·.dv d) := by
  unfold Bwd.backward
  simp only [dv_seed]
  have hg : ((Bwd.seed A w y).dv d).g = (Bwd.seed A w y).g := rfl
  rw [hg]
  simp only [bind, Except.bind]
  cases Bwd.dfs (Bwd.seed A w y).g (y + 1) y ([], []) with
  | error e => rfl
  | ok q => exact foldlM_map (k := fun w => World.dv w d) (dv_visit d A) _ _

theorem dv_madeE (d) (w : World V) (p : Except Err (Nat × Graph V)) : madeE (w.dv d) p = (madeE w p).map fun q => (q.1, q.2.dv d) := by cases p <;> rfl

theorem dv_exec1 (d) (b : Backend V) (w : World V) {c : Call V} (hm : ∀ a, c ≠ .materialize a) (ht : ∀ a, c ≠ .tolist a) : exec1 b (w.dv d) c = (exec1 b w c).map fun q => (q.1, q.2.dv d) := by
  cases c <;> first | exact dv_madeE d w _ | rfl | skip
  case materialize a => exact absurd rfl (hm a)
  case tolist a => exact absurd rfl (ht a)
  case backward a => simp only [exec1, dv_backward]; cases Bwd.backward b.A w a <;> rfl

theorem exec1_dev {b : Backend V} {w w' : World V} {c : Call V} {o : Out V} (hm : ∀ a, c ≠ .materialize a) (ht : ∀ a, c ≠ .tolist a) (h : exec1 b w c = .ok (o, w')) : w'.dev = w.dev := by
  have := dv_exec1 w.dev b w hm ht
  rw [show w.dv w.dev = w from rfl, h] at this
  have e : w' = w'.dv w.dev := by injection this with this; exact congrArg Prod.snd this
  rw [e]; rfl

theorem map_dv_ok {d} {w' : World V} {x : Except Err (World V)} (h : x.map (·.dv d) = .ok w') : ∃ w1, x = .ok w1 ∧ w' = w1.dv d := by
  cases x with
  | error e => cases h
  | ok w1 => cases h; exact ⟨w1, rfl, rfl⟩

theorem dv_keeps {w w' : World V} {x : Except Err (World V)} (h : x = x.map (·.dv w.dev)) (hx : x = .ok w') : w'.dev = w.dev := by
  rw [hx] at h
  have e : w' = w'.dv w.dev := by injection h
  rw [e]; rfl

theorem visits_dev {A : Scalar V} {l : List Nat} {w w' : World V} (h : l.foldlM (Bwd.visit A) w = .ok w') : w'.dev = w.dev :=
  dv_keeps (foldlM_map (k := fun v => World.dv v w.dev) (dv_visit w.dev A) l w) h

theorem accums_dev {l : List (Nat × Nat)} {w w' : World V} (h : l.foldlM Bwd.accum w = .ok w') : w'.dev = w.dev :=
  dv_keeps (foldlM_map (k := fun v => World.dv v w.dev) (dv_accum w.dev) l w) h

theorem seed_dev (A : Scalar V) (w : World V) (y : Nat) : (Bwd.seed A w y).dev = w.dev := by
  unfold Bwd.seed
  split <;> rfl

/-- An interrupted `backward` does not look at device memory. -/
theorem dv_stopped {A : Scalar V} {d} {w : World V} {y : Nat} {v : World V} (h : Bwd.Stopped A (w.dv d) y v) : ∃ w', Bwd.Stopped A w y w' ∧ v = w'.dv d ∧ w'.dev = w.dev := by
  have hs := seed_dev A w y
  cases h with
  | start => exact ⟨w, .start, rfl, rfl⟩
  | @seeding g' h1 h2 =>
    rw [dv_seed] at h2
    exact ⟨{ w with g := g' }, .seeding h1 h2, rfl, rfl⟩
  | seeded => exact ⟨_, .seeded, dv_seed d A w y, hs⟩
  | @rule seen funcs pre post gxs t gr w1 g g' h1 h2 h3 h4 h5 h6 h7 =>
    rw [dv_seed] at h1 h3
    rw [foldlM_map (k := fun v => World.dv v d) (dv_visit d A)] at h3
    obtain ⟨w2, e2, rfl⟩ := map_dv_ok h3
    exact ⟨{ w2 with g := g' }, .rule h1 h2 e2 h4 h5 h6 h7, rfl, (visits_dev e2).trans hs⟩
  | @adding seen funcs pre post gxs t gr w1 w2 w3 g g' done rest p h1 h2 h3 h4 h5 h6 h7 h8 h9 h10 =>
    rw [dv_seed] at h1 h3
    rw [foldlM_map (k := fun v => World.dv v d) (dv_visit d A)] at h3
    obtain ⟨u1, e1, rfl⟩ := map_dv_ok h3
    have h7' : done.foldlM Bwd.accum (({ u1 with g := g } : World V).dv d) = .ok w2 := h7
    rw [foldlM_map (k := fun v => World.dv v d) (dv_accum d)] at h7'
    obtain ⟨u2, e2, rfl⟩ := map_dv_ok h7'
    rw [dv_accum] at h8
    obtain ⟨u3, e3, rfl⟩ := map_dv_ok h8
    exact ⟨{ u2 with g := g' }, .adding h1 h2 e1 h4 h5 h6 e2 e3 h9 h10, rfl, (accums_dev e2).trans ((visits_dev e1).trans hs)⟩

/-! #### the relation -/

/-- Nothing on the device. -/
def World.bare (w : World V) : World V := w.dv fun _ => none

/-- The device memory with pointers is the device memory without. -/
structure Mem (s : PWorld V) (w : World V) : Prop where
  load : ∀ i p, s.ptr i = some p → List.lookup p s.heap = w.dev i
  inj : ∀ i j p, s.ptr i = some p → s.ptr j = some p → i = j
  own : ∀ p ∈ s.heap.map (·.1), ∃ i, s.ptr i = some p
  nodup : (s.heap.map (·.1)).Nodup

structure PtrRel (b : Backend V) (s : PWorld V) (w : World V) : Prop where
  same : s.w = w.bare
  isSome : ∀ i, (s.ptr i).isSome = (w.dev i).isSome
  mem : b.isGpu = true → Mem s w

theorem PtrRel.load {b : Backend V} {s : PWorld V} {w : World V} (h : PtrRel b s w) (hg : b.isGpu = true) (i : Nat) : Ptr.load s i = w.dev i := by
  unfold Ptr.load
  cases hp : s.ptr i with
  | none => have := h.isSome i; rw [hp] at this; cases hd : w.dev i with
    | none => rfl
    | some l => rw [hd] at this; cases this
  | some p => exact (h.mem hg).load i p hp

theorem lookup_set {h : Heap V} {p q : Nat} {l : List V} (hp : (List.lookup p h).isSome) : List.lookup q (h.set p l) = if q = p then some l else List.lookup q h := by
  induction h with
  | nil => cases hp
  | cons x h ih =>
    obtain ⟨k, v⟩ := x
    simp only [Heap.set, List.map_cons]
    by_cases hk : k = p
    · subst hk
      simp only [if_true, List.lookup_cons]
      by_cases hq : q = k
      · subst hq; simp
      · have : (q == k) = false := by simpa using hq
        simp only [this, if_neg hq]
        have aux : ∀ h : Heap V, List.lookup q (h.map fun x => if x.1 = k then (k, l) else x) = List.lookup q h := by
          intro h
          induction h with
          | nil => rfl
          | cons y h ih =>
            rw [List.map_cons]
            by_cases hy : y.1 = k
            · rw [if_pos hy]
              obtain ⟨y1, y2⟩ := y
              simp only at hy
              subst hy
              simp only [List.lookup_cons, this]; exact ih
            · rw [if_neg hy]
              obtain ⟨y1, y2⟩ := y
              simp only [List.lookup_cons]
              split
              · rfl
              · exact ih
        exact aux h
    · simp only [if_neg hk, List.lookup_cons]
      have hp' : (List.lookup p h).isSome := by
        have : (p == k) = false := by simpa using fun e => hk e.symm
        simpa [List.lookup_cons, this] using hp
      by_cases hq : q = k
      · subst hq
        simp [hk]
      · have : (q == k) = false := by simpa using hq
        simp only [this]
        exact ih hp'

theorem keys_set (h : Heap V) (p : Nat) (l : List V) : (h.set p l).map (·.1) = h.map (·.1) := by
  unfold Heap.set
  rw [List.map_map]
  refine List.map_congr_left fun x _ => ?_
  simp only [Function.comp]
  split
  · rename_i e; exact e.symm
  · rfl

theorem lookup_mem {h : Heap V} {p : Nat} (hp : (List.lookup p h).isSome) : p ∈ h.map (·.1) := by
  induction h with
  | nil => cases hp
  | cons x h ih =>
    obtain ⟨k, v⟩ := x
    by_cases hk : p = k
    · simp [hk]
    · have : (p == k) = false := by simpa using hk
      simp only [List.lookup_cons, this] at hp
      exact List.mem_cons_of_mem _ (ih hp)

theorem isSome_upd2 {α β : Type} {f : Nat → Option α} {k : Nat → Option β} (h : ∀ i, (f i).isSome = (k i).isSome) (x : Nat) (u : α) (v : β) : ∀ i, (upd f x u i).isSome = (upd k x v i).isSome := by
  intro i; unfold upd; split
  · rfl
  · exact h i

/-- Writing to the memory of array `i`. -/
theorem Mem.set {s : PWorld V} {w : World V} (h : Mem s w) {i p : Nat} (hp : s.ptr i = some p) (hd : (w.dev i).isSome) (l : List V) {W W' : World V} (hW : W'.dev = upd w.dev i l) :
    Mem ⟨W, s.ptr, s.heap.set p l⟩ W' := by
  have hsome : (List.lookup p s.heap).isSome := by rw [h.load i p hp]; exact hd
  refine ⟨fun j q hq => ?_, h.inj, ?_, ?_⟩
  · rw [hW]
    show List.lookup q (s.heap.set p l) = _
    rw [lookup_set hsome]
    unfold upd
    by_cases hj : j = i
    · subst hj
      have : q = p := by rw [show s.ptr j = some q from hq] at hp; cases hp; rfl
      rw [if_pos this, if_pos rfl]
    · rw [if_neg hj, if_neg fun e => hj (h.inj j i p (by rw [← e]; exact hq) hp)]
      exact h.load j q hq
  · show ∀ q ∈ (s.heap.set p l).map (·.1), _
    rw [keys_set]; exact h.own
  · show ((s.heap.set p l).map (·.1)).Nodup
    rw [keys_set]; exact h.nodup

variable {b : Backend V} {al : Allocator V}

theorem alloc_sim (hal : FreshBlocks al) (hg : b.isGpu = true) {s : PWorld V} {w : World V} (h : PtrRel b s w) (i : Nat) : RelE (fun s w => PtrRel b s w ∧ (s.ptr i).isSome) (Ptr.alloc b al s i) (alloc b w i) := by
  have hl : bufLen s.w i = bufLen w i := by rw [h.same]; rfl
  have hs := h.isSome i
  have hm := h.mem hg
  unfold Ptr.alloc alloc
  cases hp : s.ptr i with
  | some p =>
    rw [hp] at hs
    cases hd : w.dev i with
    | none => rw [hd] at hs; cases hs
    | some l => exact ⟨h, by rw [hp]; rfl⟩
  | none =>
    rw [hp] at hs
    cases hd : w.dev i with
    | some l => rw [hd] at hs; cases hs
    | none =>
      simp only [hl]
      split
      · exact rfl
      · have hfr := hal s.heap (bufLen w i)
        have hne : ∀ j p, s.ptr j = some p → p ≠ al s.heap (bufLen w i) := by
          intro j p hj e
          subst e
          have h1 := hm.load j _ hj
          have h2 := h.isSome j
          rw [hj] at h2
          exact hfr (lookup_mem (by rw [h1]; exact h2.symm))
        refine ⟨⟨by rw [h.same]; rfl, isSome_upd2 h.isSome _ _ _, fun _ => ⟨fun j p hj => ?_, fun j k p hj hk => ?_, fun p hp' => ?_, ?_⟩⟩, by simp [upd]⟩
        · simp only [upd] at hj ⊢
          by_cases e : j = i
          · rw [if_pos e] at hj; cases hj; rw [if_pos e]; simp
          · rw [if_neg e] at hj; rw [if_neg e, List.lookup_cons]
            have : (p == al s.heap (bufLen w i)) = false := by simpa using hne j p hj
            rw [this]; exact hm.load j p hj
        · simp only [upd] at hj hk
          by_cases e1 : j = i
          · by_cases e2 : k = i
            · rw [e1, e2]
            · rw [if_pos e1] at hj; rw [if_neg e2] at hk; cases hj; exact absurd rfl (hne k _ hk)
          · by_cases e2 : k = i
            · rw [if_neg e1] at hj; rw [if_pos e2] at hk; cases hk; exact absurd rfl (hne j _ hj)
            · rw [if_neg e1] at hj; rw [if_neg e2] at hk; exact hm.inj j k p hj hk
        · rcases List.mem_cons.1 hp' with rfl | hp'
          · exact ⟨i, by simp [upd]⟩
          · obtain ⟨j, hj⟩ := hm.own p hp'
            refine ⟨j, ?_⟩
            simp only [upd]
            rw [if_neg fun e => by rw [e, hp] at hj; cases hj]; exact hj
        · exact List.nodup_cons.2 ⟨hfr, hm.nodup⟩

theorem htod_sim (hg : b.isGpu = true) {s : PWorld V} {w : World V} (h : PtrRel b s w) {i : Nat} (hi : (s.ptr i).isSome) (k : Nat) : RelE (PtrRel b) (Ptr.htod s i k) (.ok (htod w i k)) := by
  have hc : cpuBuf s.w i = cpuBuf w i := by rw [h.same]; rfl
  obtain ⟨p, hp⟩ := Option.isSome_iff_exists.1 hi
  have hd : (w.dev i).isSome := by rw [← h.isSome]; exact hi
  unfold Ptr.htod htod
  rw [hc]
  cases cpuBuf w i with
  | none => exact h
  | some l =>
    simp only
    by_cases hk : k ≠ 0
    · rw [if_pos hk, if_pos hk, h.load hg, hp]
      obtain ⟨l0, hl0⟩ := Option.isSome_iff_exists.1 hd
      rw [hl0]
      refine ⟨by rw [h.same]; rfl, fun j => ?_, fun _ => (h.mem hg).set hp hd l rfl⟩
      show (s.ptr j).isSome = (upd w.dev i l j).isSome
      unfold upd
      by_cases e : j = i
      · rw [if_pos e, e, hp]; rfl
      · rw [if_neg e]; exact h.isSome j
    · rw [if_neg hk, if_neg hk]; exact h

theorem toDev_sim (hal : FreshBlocks al) (hg : b.isGpu = true) {s : PWorld V} {w : World V} (h : PtrRel b s w) (q : Nat × Nat) : RelE (PtrRel b) (Ptr.toDev b al s q) (toDev b w q) :=
  (alloc_sim hal hg h q.1).bind fun _ _ h1 _ => htod_sim hg h1.1 h1.2 q.2

theorem foldlM_sim {α β γ : Type} {Q : β → γ → Prop} {f : β → α → Except Err β} {k : γ → α → Except Err γ} (hf : ∀ s w x, Q s w → RelE Q (f s x) (k w x)) :
    ∀ (l : List α) {s : β} {w : γ}, Q s w → RelE Q (l.foldlM f s) (l.foldlM k w) := by
  intro l
  induction l with
  | nil => intro s w h; exact h
  | cons x l ih =>
    intro s w h
    rw [List.foldlM_cons, List.foldlM_cons]
    exact (hf s w x h).bind fun _ _ h1 _ => ih h1

theorem mapM_isSome {α β : Type} {f : α → Option β} : ∀ {l : List α}, (∀ x ∈ l, (f x).isSome) → (l.mapM f).isSome
  | [], _ => rfl
  | x :: l, h => by
    obtain ⟨y, hy⟩ := Option.isSome_iff_exists.1 (h x (by simp))
    obtain ⟨ys, hys⟩ := Option.isSome_iff_exists.1 (mapM_isSome (l := l) fun z hz => h z (by simp [hz]))
    rw [List.mapM_cons, hy, hys]; rfl

theorem invoke_simP (hal : FreshBlocks al) {s : PWorld V} {w : World V} (h : PtrRel b s w) (sch : Schedule) (K : Kernel) (out : Nat) (ins : List Nat) :
    RelE (PtrRel b) (Ptr.invoke b al s sch K out ins) (invoke b w sch K out ins) := by
  unfold Ptr.invoke
  cases hg : b.isGpu with
  | false =>
    simp only [Bool.false_eq_true, if_false]
    rw [h.same]
    unfold World.bare
    rw [dv_invoke hg]
    have hself := dv_invoke hg w w.dev sch K out ins
    rw [show w.dv w.dev = w from rfl] at hself
    cases hi : invoke b w sch K out ins with
    | error e => exact rfl
    | ok w' =>
      rw [hi] at hself
      have e : w'.dev = w.dev := by injection hself with hself; rw [hself]; rfl
      refine ⟨rfl, fun i => ?_, fun h => by rw [hg] at h; cases h⟩
      rw [e]; exact h.isSome i
  | true =>
    simp only [if_true]
    unfold invoke
    by_cases h1 : out ∈ ins
    · simp only [h1, if_true]; exact (rfl : Err.badRef = Err.badRef)
    by_cases h2 : K.params.length ≠ (out :: ins).length
    · simp only [h1, if_false, if_pos h2]; exact (rfl : Err.typeError = Err.typeError)
    simp only [h1, if_false, if_neg h2, hg, if_true]
    refine (foldlM_sim (fun s w q h => toDev_sim hal hg h q) _ h).bind fun s1 w1 hv _ => ?_
    have e1 : Ptr.load s1 out = w1.dev out := hv.load hg out
    have e2 : ins.mapM (Ptr.load s1) = ins.mapM w1.dev := mapM_opt_congr fun i _ => hv.load hg i
    have ht : s1.w.tick = w1.tick := by rw [hv.same]; rfl
    rw [e1, e2, ht]
    cases ho : w1.dev out with
    | none =>
      have hp : s1.ptr out = none := by
        have := hv.isSome out; rw [ho] at this
        cases hp : s1.ptr out with
        | none => rfl
        | some p => rw [hp] at this; cases this
      rw [hp]
      simp only [List.all_cons, hp, Option.isSome_none, Bool.false_and, Bool.false_eq_true, if_false]
      exact rfl
    | some o =>
      have hsome : (s1.ptr out).isSome := by rw [hv.isSome, ho]; rfl
      obtain ⟨p, hp⟩ := Option.isSome_iff_exists.1 hsome
      rw [hp]
      cases hi : ins.mapM w1.dev with
      | none =>
        have : ¬ ∀ x ∈ ins, (w1.dev x).isSome := fun hh => by have := mapM_isSome hh; rw [hi] at this; cases this
        have hf : ((out :: ins).all fun i => (s1.ptr i).isSome) = false := by
          rw [Bool.eq_false_iff]
          intro hh
          exact this fun x hx => by rw [← hv.isSome]; exact List.all_eq_true.1 hh x (by simp [hx])
        simp only [hf, Bool.false_eq_true, if_false]
        exact rfl
      | some is =>
        simp only
        cases hr : gpuRun b w1.tick (machine b K o is) sch K.body with
        | none => exact rfl
        | some ws =>
          refine ⟨by rw [hv.same]; rfl, fun j => ?_, fun _ => (hv.mem hg).set hp (by rw [ho]; rfl) _ rfl⟩
          show (s1.ptr j).isSome = (upd w1.dev out _ j).isSome
          unfold upd
          by_cases e : j = out
          · rw [if_pos e, e, hp]; rfl
          · rw [if_neg e]; exact hv.isSome j

/-- Changes outside of the device. -/
theorem PtrRel.other {s : PWorld V} {w : World V} (h : PtrRel b s w) {f : World V → World V} (hf : (f w).bare = f w.bare) (hd : (f w).dev = w.dev) : PtrRel b { s with w := f s.w } (f w) := by
  refine ⟨by rw [hf, h.same], by rw [hd]; exact h.isSome, fun hg => ?_⟩
  have hm := h.mem hg
  exact ⟨by rw [hd]; exact hm.load, hm.inj, hm.own, hm.nodup⟩

theorem runFunc_simP (hal : FreshBlocks al) {s : PWorld V} {w : World V} (h : PtrRel b s w) (t : Tbl) (fuel : Nat) (p : Nat × Schedule) :
    RelE (PtrRel b) (Ptr.runFunc b al t fuel s p) (runFunc b t fuel w p) := by
  have hg : s.w.g = w.g := by rw [h.same]; rfl
  have hc : s.w.cache = w.cache := by rw [h.same]; rfl
  have htm : s.w.tmp = w.tmp := by rw [h.same]; rfl
  have hh : s.w.hits = w.hits := by rw [h.same]; rfl
  unfold Ptr.runFunc runFunc
  rw [hg, hc, htm, hh]
  cases t p.1 with
  | none => exact rfl
  | some F =>
    simp only
    refine RelE.bind (Q := Eq) (RelE.eq _) fun outs _ e1 _ => ?_
    subst e1
    refine RelE.bind (Q := Eq) (RelE.eq _) fun key _ e1 _ => ?_
    subst e1
    cases w.cache.lookup key with
    | some K => exact invoke_simP hal (h.other (f := fun w0 => { w0 with hits := fun k => if k = key then w.hits k + 1 else w.hits k }) rfl rfl) _ _ _ _
    | none =>
      refine RelE.bind (Q := Eq) (RelE.eq _) fun kn _ e1 _ => ?_
      subst e1
      refine RelE.bind (Q := PtrRel b) (invoke_simP hal ?_ _ _ _ _) fun s1 w1 h1 _ => ?_
      · exact h.other (f := fun w0 => { w0 with tmp := kn.2, cache := w.cache ++ [(key, kn.1)], hits := fun k => if k = key then 0 else w.hits k }) rfl rfl
      · have hhi : s1.w.hist = w1.hist := by rw [h1.same]; rfl
        have := h1.other (f := fun w0 => { w0 with hist := w1.hist ++ [kn.1] }) rfl rfl
        rw [← hhi] at this
        exact hhi ▸ this

theorem materializeF_simP (hal : FreshBlocks al) : ∀ (fuel : Nat) {s : PWorld V} {w : World V} (a : Nat), PtrRel b s w → RelE (PtrRel b) (Ptr.materializeF b al fuel s a) (materializeF b fuel w a)
  | 0, _, _, _, _ => rfl
  | fuel + 1, s, w, a, h => by
    have hg : s.w.g = w.g := by rw [h.same]; rfl
    have hl : s.w.log = w.log := by rw [h.same]; rfl
    unfold Ptr.materializeF materializeF
    rw [hg, hl]
    split
    · exact h
    split
    · cases (w.g.ctx a).inputs with
      | nil => exact rfl
      | cons x l => exact materializeF_simP hal fuel x h
    · refine RelE.bind (Q := Eq) (RelE.eq _) fun q _ e1 _ => ?_
      subst e1
      refine RelE.bind (Q := Eq) (RelE.eq _) fun scheds _ e1 _ => ?_
      subst e1
      refine foldlM_sim (fun s w q h => runFunc_simP hal h _ _ q) _ ?_
      exact h.other (f := fun w0 => { w0 with log := _ }) rfl rfl

theorem tolist_simP {s : PWorld V} {w : World V} (h : PtrRel b s w) (a : Nat) : RelE (fun p q => p.1 = q.1 ∧ PtrRel b p.2 q.2) (Ptr.tolist b s a) (tolist b w a) := by
  have hg : s.w.g = w.g := by rw [h.same]; rfl
  unfold Ptr.tolist tolist
  rw [hg]
  refine RelE.bind (Q := PtrRel b) ?_ fun s1 w1 h1 _ => ?_
  · unfold Ptr.ensureCpu ensureCpu
    have hc : cpuBuf s.w (base w.g a) = cpuBuf w (base w.g a) := by rw [h.same]; rfl
    rw [hc]
    cases cpuBuf w (base w.g a) with
    | some l => exact h
    | none =>
      simp only
      by_cases hgpu : b.isGpu = true
      · rw [if_pos hgpu, if_pos hgpu, h.load hgpu]
        cases hd : w.dev (base w.g a) with
        | none =>
          have := h.isSome (base w.g a)
          rw [hd] at this
          simp only [this, Option.isSome_none, Bool.false_eq_true, if_false]
          exact rfl
        | some l =>
          have hcp : s.w.cpu = w.cpu := by rw [h.same]; rfl
          have hev : s.w.ev = w.ev := by rw [h.same]; rfl
          simp only [hcp, hev]
          exact h.other (f := fun w0 => { w0 with cpu := upd w.cpu (base w.g a) l, ev := w.ev ++ [.copyOut (base w.g a)] }) rfl rfl
      · rw [if_neg hgpu, if_neg hgpu]; exact rfl
  · have hg1 : s1.w.g = w1.g := by rw [h1.same]; rfl
    have hc1 : cpuBuf s1.w = cpuBuf w1 := by rw [h1.same]; rfl
    rw [hg1, hc1]
    cases cpuBuf w1 (base w1.g a) with
    | none => exact rfl
    | some data =>
      exact RelE.bind (Q := Eq) (RelE.eq _) fun l _ e1 _ => (show l = _ ∧ PtrRel b s1 w1 from ⟨e1, h1⟩)

/-- One call does the same with pointers and without. -/
theorem step_simP (hal : FreshBlocks al) {s : PWorld V} {w : World V} (h : PtrRel b s w) (c : Call V) : RelE (fun p q => p.1 = q.1 ∧ PtrRel b p.2 q.2) (Ptr.step b al s c) (step b w c) := by
  have hg : s.w.g = w.g := by rw [h.same]; rfl
  unfold Ptr.step step
  rw [hg]
  split
  swap
  · exact rfl
  by_cases hm : ∃ a, c = .materialize a
  · obtain ⟨a, rfl⟩ := hm
    have := materializeF_simP (b := b) hal (a + 1) a h
    unfold Ptr.exec1 exec1 materialize
    simp only
    cases h1 : Ptr.materializeF b al (a + 1) s a <;> cases h2 : materializeF b (a + 1) w a <;> rw [h1, h2] at this <;> simp only [RelE] at this
    · exact this
    · exact ⟨rfl, this⟩
  by_cases ht : ∃ a, c = .tolist a
  · obtain ⟨a, rfl⟩ := ht
    have := tolist_simP h a
    unfold Ptr.exec1 exec1
    simp only
    cases h1 : Ptr.tolist b s a <;> cases h2 : tolist b w a <;> rw [h1, h2] at this <;> simp only [RelE] at this
    · exact this
    · exact ⟨congrArg Out.list this.1, this.2⟩
  have hm' : ∀ a, c ≠ .materialize a := fun a e => hm ⟨a, e⟩
  have ht' : ∀ a, c ≠ .tolist a := fun a e => ht ⟨a, e⟩
  have e : Ptr.exec1 b al s c = (exec1 b s.w c).map fun p => (p.1, { s with w := p.2 }) := by
    cases c <;> first | rfl | exact absurd rfl (hm' _) | exact absurd rfl (ht' _)
  rw [e, h.same]
  unfold World.bare
  rw [dv_exec1 _ _ _ hm' ht']
  cases hx : exec1 b w c with
  | error e => exact rfl
  | ok q =>
    have hd : q.2.dev = w.dev := exec1_dev hm' ht' hx
    refine ⟨rfl, rfl, fun i => by rw [hd]; exact h.isSome i, fun hgpu => ?_⟩
    have hmm := h.mem hgpu
    exact ⟨by rw [hd]; exact hmm.load, hmm.inj, hmm.own, hmm.nodup⟩

/-- Collecting an array. -/
theorem collect_sim {s : PWorld V} {w : World V} (h : PtrRel b s w) (i : Nat) : PtrRel b (Ptr.collect b s i) (w.collect i) := by
  refine ⟨?_, fun j => ?_, fun hg => ?_⟩
  · unfold Ptr.collect World.collect
    simp only [h.isSome i]
    rw [h.same]
    rfl
  · show (if j = i then none else s.ptr j).isSome = (if j = i then none else w.dev j).isSome
    split
    · rfl
    · exact h.isSome j
  · have hm := h.mem hg
    have hheap : (Ptr.collect b s i).heap = s.heap.filter fun x => decide (s.ptr i ≠ some x.1) := by unfold Ptr.collect; rw [if_pos hg]
    have hptr : ∀ j p, (Ptr.collect b s i).ptr j = some p → j ≠ i ∧ s.ptr j = some p := by
      intro j p hj
      have hj : (if j = i then none else s.ptr j) = some p := hj
      split at hj
      · cases hj
      · rename_i hne; exact ⟨hne, hj⟩
    have hlook : ∀ (H : Heap V) p, s.ptr i ≠ some p → List.lookup p (H.filter fun x => decide (s.ptr i ≠ some x.1)) = List.lookup p H := by
      intro H p hp
      induction H with
      | nil => rfl
      | cons x H ih =>
        obtain ⟨k, v⟩ := x
        by_cases hk : s.ptr i = some k
        · rw [List.filter_cons_of_neg (by simp [hk])]
          have : (p == k) = false := by simpa using fun e => hp (by rw [e]; exact hk)
          rw [ih, List.lookup_cons, this]
        · rw [List.filter_cons_of_pos (by simpa using hk), List.lookup_cons, List.lookup_cons, ih]
    have hkeys : ∀ p ∈ (Ptr.collect b s i).heap.map (·.1), p ∈ s.heap.map (·.1) ∧ s.ptr i ≠ some p := by
      intro p hp
      rw [hheap] at hp
      obtain ⟨x, hx, rfl⟩ := List.mem_map.1 hp
      rw [List.mem_filter] at hx
      exact ⟨List.mem_map_of_mem hx.1, by simpa using hx.2⟩
    refine ⟨fun j p hj => ?_, fun j k p hj hk => ?_, fun p hp => ?_, ?_⟩
    · obtain ⟨hne, hj⟩ := hptr j p hj
      rw [hheap, hlook _ _ fun e => hne (hm.inj j i p hj e)]
      show _ = if j = i then none else w.dev j
      rw [if_neg hne]; exact hm.load j p hj
    · exact hm.inj j k p (hptr j p hj).2 (hptr k p hk).2
    · obtain ⟨h1, h2⟩ := hkeys p hp
      obtain ⟨j, hj⟩ := hm.own p h1
      refine ⟨j, ?_⟩
      show (if j = i then none else s.ptr j) = some p
      rw [if_neg fun e => h2 (by rw [← e]; exact hj)]; exact hj
    · rw [hheap]
      exact hm.nodup.sublist (List.filter_sublist.map _)

/-! #### histories -/

theorem live_bare {w : World V} {R : List Nat} {i : Nat} : Live w.bare R i ↔ Live w R i := by
  constructor
  · intro h
    induction h with
    | root h => exact .root h
    | input _ h ih => exact .input ih h
    | grad _ h ih => exact .grad ih h
  · intro h
    induction h with
    | root h => exact .root h
    | input _ h ih => exact .input ih h
    | grad _ h ih => exact .grad ih h

theorem argsOK_bare {w : World V} {c : Call V} : ArgsOK b w.bare c ↔ ArgsOK b w c := by cases c <;> exact Iff.rfl

/-- A history with pointers is one without. -/
theorem RunsP.sim (hal : FreshBlocks al) {s s' : PWorld V} {w : World V} {R G R' G' : List Nat} (h : PtrRel b s w) (hr : RunsP b al s R G s' R' G') :
    ∃ w', RunsG b w R G w' R' G' ∧ PtrRel b s' w' := by
  induction hr with
  | refl => exact ⟨w, .refl, h⟩
  | @call s1 s' R1 G1 c o _ hc hok hs ih =>
    obtain ⟨w1, hw, h1⟩ := ih
    have := step_simP hal h1 c
    rw [hs] at this
    cases hst : step b w1 c with
    | error e => rw [hst] at this; exact this.elim
    | ok q =>
      rw [hst] at this
      obtain ⟨o', w'⟩ := q
      obtain ⟨e, h2⟩ : o = o' ∧ PtrRel b s' w' := this
      subst e
      exact ⟨w', .call hw hc (by rw [h1.same] at hok; exact argsOK_bare.1 hok) hst, h2⟩
  | @raise s1 R1 G1 c e _ hc hat hs ih =>
    obtain ⟨w1, hw, h1⟩ := ih
    have := step_simP hal h1 c
    rw [hs] at this
    cases hst : step b w1 c with
    | ok q => rw [hst] at this; exact this.elim
    | error e' => exact ⟨w1, .raise hw hc hat hst, h1⟩
  | @stopped s1 w' R1 G1 y _ hy hok hst ih =>
    obtain ⟨w1, hw, h1⟩ := ih
    rw [h1.same] at hok hst
    obtain ⟨w2, hst2, rfl, hd⟩ := dv_stopped hst
    exact ⟨w2, .stopped hw hy (argsOK_bare.1 hok) hst2, rfl, by rw [hd]; exact h1.isSome, fun hg => ⟨by rw [hd]; exact (h1.mem hg).load, (h1.mem hg).inj, (h1.mem hg).own, (h1.mem hg).nodup⟩⟩
  | drop _ hsub ih =>
    obtain ⟨w1, hw, h1⟩ := ih
    exact ⟨w1, .drop hw hsub, h1⟩
  | @collect s1 R1 G1 i _ hlt hnl hnG ih =>
    obtain ⟨w1, hw, h1⟩ := ih
    rw [h1.same] at hlt hnl
    exact ⟨_, .collect hw hlt (fun hl => hnl (live_bare.2 hl)) hnG, collect_sim h1 i⟩

/-- What survives calls, collections and switches. -/
structure LaterP (b b' : Backend V) (w w' : World V) (G G' : List Nat) : Prop where
  faithful : Faithful b'
  A : b'.A = b.A
  ext : Ext w.g w'.g
  cpuMono : ∀ i, i ∉ G' → (w.cpu i).isSome → (w'.cpu i).isSome
  sub : G ⊆ G'

theorem RunsPS.later {b' : Backend V} (hal : FreshBlocks al) (hb : Faithful b) {s s' : PWorld V} {w : World V} {R G R' G' : List Nat} (h : PtrRel b s w) (hi : InvC b w R G)
    (hr : RunsPS al b s R G b' s' R' G') : ∃ w', PtrRel b' s' w' ∧ InvC b' w' R' G' ∧ LaterP b b' w w' G G' := by
  induction hr with
  | refl => exact ⟨w, h, hi, hb, rfl, .refl _, fun _ _ h => h, fun _ h => h⟩
  | run _ hr1 ih =>
    obtain ⟨w1, h1, i1, l1⟩ := ih
    obtain ⟨w2, g2, h2⟩ := hr1.sim hal h1
    obtain ⟨i2, l2, s2⟩ := g2.inv l1.faithful i1
    exact ⟨w2, h2, i2, l1.faithful, l1.A, l1.ext.trans l2.ext, fun i hi hs => l2.cpuMono i hi (l1.cpuMono i (fun h => hi (s2 h)) hs), fun i hi => s2 (l1.sub hi)⟩
  | @switch b1 b' s1 R1 G1 _ hA hf hgpu ih =>
    obtain ⟨w1, h1, i1, l1⟩ := ih
    have hst : step b1 w1 .reset = .ok (.unit, { w1 with cache := [], hits := fun _ => 0, hist := [], log := [], epoch := w1.tick }) := by
      rw [step_eq (by simp [Call.arrays])]; rfl
    obtain ⟨i2, l2, s2⟩ := (RunsG.call (R := R1) (G := G1) .refl (by simp [Call.arrays]) (show ArgsOK b1 w1 .reset from trivial) hst).inv l1.faithful i1
    refine ⟨{ w1 with cache := [], hits := fun _ => 0, hist := [], log := [], epoch := w1.tick }, ⟨by unfold Ptr.switch; rw [h1.same]; rfl, h1.isSome, fun hg => ?_⟩,
      ⟨i2.inv.switch hA, i2.held, i2.dead, i2.gone⟩, hf, hA.trans l1.A, l1.ext.trans l2.ext, fun i hi hs => l2.cpuMono i hi (l1.cpuMono i hi hs), l1.sub⟩
    have hn : ∀ i p, (Ptr.switch s1).ptr i ≠ some p := fun i p hp => by rw [show (Ptr.switch s1).ptr i = s1.ptr i from rfl, hgpu hg i] at hp; cases hp
    exact ⟨fun i p hp => absurd hp (hn i p), fun i j p hp _ => absurd hp (hn i p), fun p hp => by simp [Ptr.switch] at hp, List.nodup_nil⟩

theorem prel_init (b : Backend V) : PtrRel b (Ptr.init : PWorld V) Mat.init :=
  ⟨rfl, fun _ => rfl, fun _ => ⟨fun i p h => by simp [Ptr.init] at h, fun i j p h => by simp [Ptr.init] at h, fun p h => by simp [Ptr.init] at h, List.nodup_nil⟩⟩

theorem ReachableP.inv (hal : FreshBlocks al) {s : PWorld V} {R G : List Nat} (h : ReachableP al b s R G) : ∃ w, Faithful b ∧ PtrRel b s w ∧ InvC b w R G := by
  obtain ⟨b0, hf, hr⟩ := h
  obtain ⟨w, h1, h2, h3⟩ := hr.later hal hf (prel_init b0) (Inv.initC b0)
  exact ⟨w, h3.faithful, h1, h2⟩

/-- The outcome of a call, from the session without pointers. -/
theorem PtrRel.step_ok (hal : FreshBlocks al) {s : PWorld V} {w w' : World V} (h : PtrRel b s w) {c : Call V} {o : Out V} (hs : step b w c = .ok (o, w')) :
    ∃ s', Ptr.step b al s c = .ok (o, s') ∧ PtrRel b s' w' := by
  have := step_simP hal h c
  rw [hs] at this
  cases hst : Ptr.step b al s c with
  | error e => rw [hst] at this; exact this.elim
  | ok q =>
    rw [hst] at this
    obtain ⟨o', s'⟩ := q
    obtain ⟨e, h2⟩ : o' = o ∧ PtrRel b s' w' := this
    subst e
    exact ⟨s', rfl, h2⟩

end Whale
