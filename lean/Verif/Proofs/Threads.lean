import Verif.Spec.Threads
import Verif.Proofs.Crash
/-
Proofs for C73: the invariant of programs with threads.
-/
namespace Whale
open Kern Codegen Mat Hist Thr
variable {V : Type}

/-- Array `i` has its right elements in the CPU memory. -/
def AvC (D : List Nat) (w : World V) (i : Nat) : Prop := (cpuBuf (w.clean D) i).isSome

/-- The kernel for array `o` is running: every element of its buffer is right, or one of the remaining stores writes it. -/
structure CurOK (b : Backend V) (w : World V) (o : Nat) (ws : List (Int × V)) : Prop where
  lt : o < w.g.length
  nonconst : w.g.ctx o ≠ .const
  right : ∀ x ∈ ws, ((den b.A w.g o).flatten)[x.1.toNat]? = some x.2
  buf : ∃ l, w.cpu o = some l ∧ l.length = (den b.A w.g o).flatten.length ∧ ∀ k, l[k]? = (den b.A w.g o).flatten[k]? ∨ ∃ x ∈ ws, x.1.toNat = k

/-- A `materialize` call that is under way. -/
structure JobOK (b : Backend V) (D : List Nat) (w : World V) (j : Job V) : Prop where
  ext : Ext j.g w.g
  lt : j.arr < j.g.length
  base : base j.g j.arr = j.a
  ex : ∃ (S : Nat → Prop) (done : List Nat), TblGood j.g j.t j.a S ∧ (∀ p ∈ j.todo, S p.1 ∧ ∃ F, j.t p.1 = some F ∧ Sched.schedule b.isGpu F = .ok p.2) ∧
    (∀ p ∈ j.todo, ∀ q, plan1 j.g j.t (j.a + 2) p = some q → q ∈ w.log) ∧ Ordered j.t (done ++ (j.cur.map (·.1)).toList ++ j.todo.map (·.1)) ∧
    (∀ d ∈ done, AvC D w d) ∧ j.a ∈ done ++ (j.cur.map (·.1)).toList ++ j.todo.map (·.1)
  cur : ∀ o ws, j.cur = some (o, ws) → CurOK b w o ws
  found : ∀ K n, j.found = some (K, n) → j.cur = none ∧ ∃ p todo F key K1 n1 m, j.todo = p :: todo ∧ j.t p.1 = some F ∧ cacheKey j.g j.t (j.a + 2) F p.2 = .ok key ∧ (key, .ok (K1, n1)) ∈ w.log ∧ K = K1.shift m

/-- What a step of one thread may do to the others. -/
structure TLater (b : Backend V) (D : List Nat) (w : World V) (D' : List Nat) (w' : World V) : Prop where
  ext : Ext w.g w'.g
  wf : WF w'.g
  avail : ∀ i, i < w.g.length → AvC D w i → AvC D' w' i
  better : ∀ (o : Nat) (l : List V), o < w.g.length → w.cpu o = some l → ∃ l' : List V, w'.cpu o = some l' ∧ l'.length = l.length ∧ ∀ k : Nat, l[k]? = (den b.A w.g o).flatten[k]? → l'[k]? = (den b.A w.g o).flatten[k]?

theorem avC_lt {b : Backend V} {D : List Nat} {w : World V} (h : WInv b (w.clean D)) {i : Nat} (ha : AvC D w i) (hl : (w.g.nd i).val.isSome → i < w.g.length) : i < w.g.length := by
  unfold AvC at ha
  cases hc : (w.clean D).cpu i with
  | some l => exact (h.cpu i l hc).1
  | none =>
    unfold cpuBuf at ha
    rw [hc, Option.none_or] at ha
    exact hl ha

theorem CurOK.later {b : Backend V} {D D' : List Nat} {w w' : World V} {o : Nat} {ws : List (Int × V)} (h : CurOK b w o ws) (l : TLater b D w D' w') : CurOK b w' o ws := by
  obtain ⟨buf, hb, hlen, hk⟩ := h.buf
  have hd := den_ext b.A l.ext l.wf h.lt
  obtain ⟨l', h1, h2, h3⟩ := l.better o buf h.lt hb
  refine ⟨Nat.lt_of_lt_of_le h.lt l.ext.length, by rw [l.ext.ctx h.lt]; exact h.nonconst, by rw [hd]; exact h.right, l', h1, by rw [hd, h2, hlen], fun k => ?_⟩
  rw [hd]
  exact (hk k).imp (h3 k) id

/-- Other threads' calls are not disturbed. -/
theorem JobOK.later {b : Backend V} {D D' : List Nat} {w w' : World V} {j : Job V} (h : JobOK b D w j) (l : TLater b D w D' w') (hlt : ∀ i, AvC D w i → i < w.g.length)
    (hlog : ∀ q ∈ w.log, q ∈ w'.log) : JobOK b D' w' j := by
  obtain ⟨S, done, h1, h2, h3, h4, h5, h6⟩ := h.ex
  exact ⟨h.ext.trans l.ext, h.lt, h.base, ⟨S, done, h1, h2, fun p hp q hq => hlog q (h3 p hp q hq), h4, fun d hd => l.avail d (hlt d (h5 d hd)) (h5 d hd), h6⟩, fun o ws hc => (h.cur o ws hc).later l, fun K n hf => by
    obtain ⟨hc, p, todo, F, key, K1, n1, m, e1, e2, e3, e4, e5⟩ := h.found K n hf
    exact ⟨hc, p, todo, F, key, K1, n1, m, e1, e2, e3, hlog _ e4, e5⟩⟩

/-- A call whose kernel is running has not found the next one. -/
theorem JobOK.notFound {b : Backend V} {D : List Nat} {w : World V} {j : Job V} (h : JobOK b D w j) {q : Nat × List (Int × V)} (hc : j.cur = some q) : j.found = none := by
  cases hf : j.found with
  | none => rfl
  | some r => have := (h.found r.1 r.2 hf).1; rw [hc] at this; cases this

/-- One buffer becomes right. -/
theorem WInv.unmask {b : Backend V} {D : List Nat} {w : World V} (h : WInv b (w.clean D)) (hd : ∀ i, w.dev i = none) {o : Nat} (ho : o < w.g.length) (hr : ∀ l, w.cpu o = some l → l = (den b.A w.g o).flatten) :
    WInv b (w.clean (D.filter (· ≠ o))) := by
  refine ⟨h.wf, h.nn, fun i l hl => ?_, h.dev, h.cache, h.ev.ok, h.ev.dev, fun i hi hs => ?_⟩
  · by_cases hm : i ∈ D.filter (· ≠ o)
    · rw [clean_mem hm] at hl; cases hl
    · rw [clean_not hm] at hl
      by_cases he : i = o
      · subst he; exact ⟨ho, hr l hl⟩
      · exact h.cpu i l (by rw [clean_not (fun hx => hm (mem_without.2 ⟨hx, he⟩))]; exact hl)
  · have : (w.dev i).isSome := hs
    rw [hd i] at this; cases this

/-- A nonconstant array below the length with a right buffer is available when it is not masked. -/
theorem avC_of_cpu {D : List Nat} {w : World V} {i : Nat} (hn : i ∉ D) (h : (w.cpu i).isSome) : AvC D w i := by
  unfold AvC
  rw [cpuBuf_clean hn]
  unfold cpuBuf
  cases hc : w.cpu i with
  | some l => rfl
  | none => rw [hc] at h; cases h

theorem InvX.avLt {b : Backend V} {D : List Nat} {w : World V} (h : InvX b D w) {i : Nat} (ha : AvC D w i) : i < w.g.length := by
  refine avC_lt h.inv.winv ha fun hs => ?_
  by_contra hn
  have : w.g.nd i = default := by
    unfold Graph.nd
    rw [List.getD_eq_getElem?_getD, List.getElem?_eq_none (by omega)]; rfl
  rw [this] at hs
  cases hs

/-- One step of a `materialize` call. -/
structure AdvOK (b : Backend V) (D : List Nat) (j : Job V) (w : World V) (D' : List Nat) (j' : Job V) (w' : World V) : Prop where
  inv : InvX b D' w'
  later : TLater b D w D' w'
  log : w'.log = w.log
  g : w'.g = w.g
  grad : w'.grad = w.grad
  arr : j'.arr = j.arr
  a : j'.a = j.a
  g' : j'.g = j.g
  ok : JobOK b D' w' j'

theorem InvX.of_parts {b : Backend V} {D D' : List Nat} {w w' : World V} (h : InvX b D w) (hi : WInv b (w'.clean D')) (hd : DirtyOK b D' w') (hg : w'.g = w.g) (hgr : w'.grad = w.grad) : InvX b D' w' := by
  refine ⟨⟨hi, ?_, ?_, False.elim⟩, hd⟩
  · have : NN w'.g := by rw [hg]; exact h.inv.nn
    exact this
  · intro i k hk
    have hk' : w'.grad i = some k := hk
    rw [hgr] at hk'
    have := h.inv.gs i k hk'
    show i < w'.g.length ∧ k < w'.g.length ∧ w'.g.shape k = w'.g.shape i
    rw [hg]; exact this

/-- A store. -/
theorem store_ok {b : Backend V} {D : List Nat} {w : World V} (h : InvX b D w) {j : Job V} (hj : JobOK b D w j) {o : Nat} {k : Int} {v : V} {ws : List (Int × V)} (hc : j.cur = some (o, (k, v) :: ws)) :
    ∃ l, w.cpu o = some l ∧ AdvOK b D j w D { j with cur := some (o, ws) } { w with cpu := upd w.cpu o (l.set k.toNat v) } := by
  have C := hj.cur _ _ hc
  obtain ⟨l, hl, hlen, hk⟩ := C.buf
  have hwf : WF w.g := h.inv.winv.wf
  have hr : (den b.A w.g o).flatten[k.toNat]? = some v := C.right (k, v) (by simp)
  have hset : ∀ m : Nat, l[m]? = (den b.A w.g o).flatten[m]? → (l.set k.toNat v)[m]? = (den b.A w.g o).flatten[m]? := by
    intro m hm
    rw [List.getElem?_set]
    split
    · rename_i he
      subst he
      split
      · exact hr.symm
      · rw [← hm, List.getElem?_eq_none (by omega)]
    · exact hm
  have hav : ∀ i, AvC D w i → AvC D { w with cpu := upd w.cpu o (l.set k.toNat v) } i := by
    intro i hi
    have hD := h.dirty.notMem hwf hi
    unfold AvC at hi ⊢
    rw [cpuBuf_clean hD] at hi ⊢
    unfold cpuBuf at hi ⊢
    by_cases he : i = o
    · subst he; simp [upd_same]
    · simp only [upd_ne _ _ he]; exact hi
  have hbetter : ∀ (o' : Nat) (l' : List V), o' < w.g.length → w.cpu o' = some l' → ∃ l'' : List V, upd w.cpu o (l.set k.toNat v) o' = some l'' ∧ l''.length = l'.length ∧
      ∀ m : Nat, l'[m]? = (den b.A w.g o').flatten[m]? → l''[m]? = (den b.A w.g o').flatten[m]? := by
    intro o' l' _ h2
    by_cases he : o' = o
    · subst he
      rw [hl] at h2; cases h2
      exact ⟨_, upd_same _ _ _, by simp, hset⟩
    · exact ⟨l', by rw [upd_ne _ _ he]; exact h2, rfl, fun _ h => h⟩
  have hlater : TLater b D w D { w with cpu := upd w.cpu o (l.set k.toNat v) } := ⟨.refl _, hwf, fun i _ => hav i, hbetter⟩
  obtain ⟨S, done, h1, h2, h3, h4, h5, h6⟩ := hj.ex
  refine ⟨l, hl, ?_, hlater, rfl, rfl, rfl, rfl, rfl, rfl, ⟨hj.ext, hj.lt, hj.base, ⟨S, done, h1, h2, h3, ?_, fun d hd => hav d (h5 d hd), ?_⟩, ?_, fun K n hf => by rw [hj.notFound hc] at hf; cases hf⟩⟩
  · refine h.of_parts ⟨hwf, h.inv.winv.nn, fun i l' hl' => ?_, h.inv.winv.dev, h.inv.winv.cache, h.inv.winv.ev.ok, h.inv.winv.ev.dev, fun i hi hs => ?_⟩ ⟨h.dirty.lt, h.dirty.nonconst, fun i hi l' hl' => ?_, h.dirty.nodev⟩ rfl rfl
    · by_cases hD : i ∈ D
      · rw [clean_mem hD] at hl'; cases hl'
      · rw [clean_not hD] at hl'
        by_cases he : i = o
        · subst he
          simp only [upd_same] at hl'
          cases hl'
          have hx : l = (den b.A w.g i).flatten := (h.inv.winv.cpu i l (by rw [clean_not hD]; exact hl)).2
          refine ⟨C.lt, List.ext_getElem? fun m => hset m (by rw [← hx])⟩
        · simp only [upd_ne _ _ he] at hl'
          exact h.inv.winv.cpu i l' (by rw [clean_not hD]; exact hl')
    · have : (w.dev i).isSome := hs
      rw [h.dirty.nodev i] at this; cases this
    · by_cases he : i = o
      · subst he
        simp only [upd_same] at hl'
        cases hl'
        have := (h.dirty.part i hi l hl).writes (ws := [(k, v)]) (by intro x hx; simp only [List.mem_singleton] at hx; subst hx; exact hr)
        simpa [applyWrites] using this
      · simp only [upd_ne _ _ he] at hl'
        exact h.dirty.part i hi l' hl'
  · rw [hc] at h4; exact h4
  · rw [hc] at h6; exact h6
  · intro o' ws' he
    simp only [Option.some.injEq, Prod.mk.injEq] at he
    obtain ⟨rfl, rfl⟩ := he
    refine ⟨C.lt, C.nonconst, fun x hx => C.right x (by simp [hx]), _, upd_same _ _ _, by simpa using hlen, fun m => ?_⟩
    rcases hk m with hm | ⟨x, hx, hm⟩
    · exact .inl (hset m hm)
    · rcases List.mem_cons.1 hx with rfl | hx
      · left
        subst hm
        rw [List.getElem?_set, if_pos rfl]
        have : k.toNat < (den b.A w.g o).flatten.length := by
          by_contra hn
          rw [List.getElem?_eq_none (by omega)] at hr; cases hr
        rw [if_pos (by omega)]; exact hr.symm
      · exact .inr ⟨x, hx, hm⟩

/-- A kernel that has done all its stores. -/
theorem done_ok {b : Backend V} {D : List Nat} {w : World V} (h : InvX b D w) {j : Job V} (hj : JobOK b D w j) {o : Nat} (hc : j.cur = some (o, [])) :
    AdvOK b D j w (D.filter (· ≠ o)) { j with cur := none } w := by
  have C := hj.cur _ _ hc
  obtain ⟨l, hl, hlen, hk⟩ := C.buf
  have hwf : WF w.g := h.inv.winv.wf
  have hx : l = (den b.A w.g o).flatten := List.ext_getElem? fun m => (hk m).resolve_right (by simp)
  have hav : ∀ i, AvC D w i → AvC (D.filter (· ≠ o)) w i := by
    intro i hi
    have hD := h.dirty.notMem hwf hi
    unfold AvC at hi ⊢
    rw [cpuBuf_clean hD] at hi
    rw [cpuBuf_clean (fun hm => hD (mem_without.1 hm).1)]; exact hi
  obtain ⟨S, done, h1, h2, h3, h4, h5, h6⟩ := hj.ex
  rw [hc] at h4 h6
  refine ⟨h.of_parts (h.inv.winv.unmask h.dirty.nodev C.lt (fun l' hl' => by rw [hl] at hl'; cases hl'; exact hx))
    ⟨fun i hi => h.dirty.lt i (mem_without.1 hi).1, fun i hi => h.dirty.nonconst i (mem_without.1 hi).1, fun i hi => h.dirty.part i (mem_without.1 hi).1, h.dirty.nodev⟩ rfl rfl,
    ⟨.refl _, hwf, fun i _ => hav i, fun o' l' _ hl' => ⟨l', hl', rfl, fun _ h => h⟩⟩, rfl, rfl, rfl, rfl, rfl, rfl,
    ⟨hj.ext, hj.lt, hj.base, ⟨S, done ++ [o], h1, h2, h3, by simpa using h4, fun d hd => ?_, by simpa using h6⟩, fun o' ws' he => by simp at he, fun K n hf => by rw [hj.notFound hc] at hf; cases hf⟩⟩
  rcases List.mem_append.1 hd with hd | hd
  · exact hav d (h5 d hd)
  · simp only [List.mem_singleton] at hd
    subst hd
    exact avC_of_cpu (fun hm => (mem_without.1 hm).2 rfl) (by rw [hl]; rfl)

theorem applyWrites_nowhere {l : List V} {ws : List (Int × V)} {k : Nat} (h : ∀ x ∈ ws, x.1.toNat ≠ k) : (applyWrites l ws)[k]? = l[k]? := by
  unfold applyWrites
  induction ws generalizing l with
  | nil => rfl
  | cons x ws ih =>
    rw [List.foldl_cons, ih (fun y hy => h y (by simp [hy])), List.getElem?_set_ne (h x (by simp))]

/-- Starting a kernel. -/
theorem thrLaunch_ok {b : Backend V} {D : List Nat} {w : World V} (h : WInv b (w.clean D)) (hd : DirtyOK b D w) (hg : b.isGpu = false) {sch : Schedule} {K : Kernel} {out : Nat} {ins : List Nat}
    (ho : out < w.g.length) (hc : w.g.ctx out ≠ .const) (hni : out ∉ ins) (hp : K.params.length = (out :: ins).length) (hin : ∀ i ∈ ins, i < w.g.length ∧ (cpuBuf (w.clean D) i).isSome)
    (hrun : ∀ o : List V, (o.length : Int) = prod (w.g.shape out) →
      ∃ ws, b.run w.tick (machine b K o (ins.map fun i => (den b.A w.g i).flatten)) sch K.body = some ws ∧ ws.Perm (storesOf b.A w.g out)) :
    ∃ ws w', Thr.launch b w sch K out ins = .ok (ws, w') ∧ StepX b D w (spoiled w D (some out)) w' ∧ (∀ i l, w.cpu i = some l → w'.cpu i = some l) ∧ CurOK b w' out ws ∧ w'.cache = w.cache ∧ w'.tmp = w.tmp := by
  have hwf : WF w.g := h.wf
  obtain ⟨o, cpu1, htake, hfold, hb1, hoff, hor, hol, hin1⟩ := fill_dirty h hd ho hni hin
  obtain ⟨ws, hws, hperm⟩ := hrun o hol
  have hnn : NonNeg (w.g.shape out) := h.nn out ho
  have hb1' : cpu1 out = some o := by
    unfold cpuBuf at hb1
    rw [show ({ w with cpu := cpu1 } : World V).g = w.g from rfl, nonconst_val hwf ho hc, Option.or_none] at hb1
    exact hb1
  have hs := invokePart_dirty (K := K) (sch := sch) (w' := { w with cpu := upd cpu1 out (applyWrites o []), tick := w.tick + 1 }) h hd hg ho hc hni hin hrun
    (by
      have := InvokePart.running (b := b) (w := w) (sch := sch) (K := K) (out := out) (ins := ins) (ws := ws) (ws' := []) hg rfl (by rw [hfold]; exact hb1)
        (by rw [hfold]; exact mapM_some hin1) (by rw [hfold]; exact hws) (List.nil_prefix)
      rw [hfold] at this; exact this)
  have hupd : upd cpu1 out (applyWrites o []) = cpu1 := by
    funext i
    by_cases he : i = out
    · subst he; rw [upd_same, hb1']; rfl
    · rw [upd_ne _ _ he]
  rw [hupd] at hs
  refine ⟨ws, { w with cpu := cpu1, tick := w.tick + 1 }, ?_, hs, fun i l hl => ?_, ⟨ho, hc, fun x hx => stores_right hwf ho x (hperm.mem_iff.1 hx), o, hb1', ?_, fun k => ?_⟩, rfl, rfl⟩
  · simp only [Thr.launch, if_neg hni, if_neg (not_not.2 hp), hg, hfold, hb1, mapM_some hin1, hws, bind, Except.bind, pure, Except.pure]
    simp [hws]
  · by_cases he : i = out
    · subst he
      have hcb : cpuBuf w i = some l := by unfold cpuBuf; rw [hl]; rfl
      rcases hor with ⟨h1, h2⟩ | ⟨h1, _⟩
      · show cpu1 i = some l
        rw [h2]; exact hl
      · rw [hcb] at h1; cases h1
    · show cpu1 i = some l
      rw [hoff i he]; exact hl
  · have := flatten_len h (i := out) ho
    have : (((den b.A w.g out).flatten.length : Nat) : Int) = prod (w.g.shape out) := this
    show o.length = (den b.A w.g out).flatten.length
    omega
  · show o[k]? = (den b.A w.g out).flatten[k]? ∨ _
    by_cases hx : ∃ x ∈ ws, x.1.toNat = k
    · exact .inr hx
    · left
      have hout : applyWrites o ws = (den b.A w.g out).flatten := applyWrites_stores hwf ho hnn hperm hol
      rw [← hout, applyWrites_nowhere (fun x hx' he => hx ⟨x, hx', he⟩)]

theorem avC_spoiled {b : Backend V} {D : List Nat} {w w' : World V} {f : Nat} (h : InvX b D w) (s : StepX b D w (spoiled w D (some f)) w') {i : Nat} (hi : AvC D w i) : AvC (spoiled w D (some f)) w' i := by
  have hwf : WF w.g := h.inv.winv.wf
  have hD := h.dirty.notMem hwf hi
  refine cpuBuf_monoX s h.dirty hwf (fun hm => ?_) hi
  have hs : (cpuBuf w i).isSome := by
    have := hi
    unfold AvC at this
    rwa [cpuBuf_clean hD] at this
  rcases mem_spoiled hm with he | he
  · cases he
    simp only [spoiled, if_pos hs] at hm
    exact hD hm
  · exact hD he

/-- The next kernel is found in the cache or generated. -/
theorem thrFind_ok {b : Backend V} (hb : Faithful b) {D : List Nat} {w : World V} (h : InvX b D w) (hnc : NoCollision w.log) {j : Job V} (hj : JobOK b D w j) (hc : j.cur = none)
    {p : Nat × Schedule} {todo : List (Nat × Schedule)} (ht : j.todo = p :: todo) :
    ∃ q w', find b j w p = .ok (q, w') ∧ w'.g = w.g ∧ AdvOK b D j w D { j with found := some q } w' := by
  have hwf : WF w.g := h.inv.winv.wf
  have hwfj : WF j.g := WF.of_ext hj.ext hwf
  have hshape : ∀ i, i < j.g.length → w.g.shape i = j.g.shape i := fun i hi => hj.ext.shape hi
  have hlen : ∀ i, i < j.g.length → i < w.g.length := fun i hi => Nat.lt_of_lt_of_le hi hj.ext.length
  obtain ⟨S, done, h1, h2, h3, h4, h5, h6⟩ := hj.ex
  obtain ⟨f, sch⟩ := p
  obtain ⟨hS, F, hF, hsch⟩ := h2 (f, sch) (by rw [ht]; simp)
  obtain ⟨key, K0, n0, X⟩ := func_facts (g := j.g) hb hwfj (fun i hi => by rw [← hshape i hi]; exact h.inv.winv.nn i (hlen i hi)) h1 hS hF hsch (log := w.log) (fun q hq => h3 _ (by rw [ht]; simp) q hq)
  have fin : ∀ (w' : World V) (K : Kernel) (n : Bool) (m : Nat), WInv b (w'.clean D) → w'.g = w.g → w'.cpu = w.cpu → w'.dev = w.dev → w'.grad = w.grad → w'.log = w.log → K = K0.shift m →
      AdvOK b D j w D { j with found := some (K, n) } w' := by
    intro w' K n m hw e1 e2 e3 e4 e5 e6
    have hcb : ∀ i, cpuBuf (w'.clean D) i = cpuBuf (w.clean D) i := by
      intro i
      unfold cpuBuf World.clean
      simp only [e1, e2]
    have hl : TLater b D w D w' := ⟨by rw [e1]; exact .refl _, by rw [e1]; exact hwf, fun i _ hi => by unfold AvC at hi ⊢; rw [hcb]; exact hi, fun o l _ hl => ⟨l, by rw [e2]; exact hl, rfl, fun _ h => h⟩⟩
    have hd : DirtyOK b D w' := by
      refine ⟨?_, ?_, ?_, ?_⟩
      · rw [e1]; exact h.dirty.lt
      · rw [e1]; exact h.dirty.nonconst
      · rw [e1, e2]; exact h.dirty.part
      · rw [e3]; exact h.dirty.nodev
    have hj' := hj.later hl (fun i hi => h.avLt hi) (fun q hq => by rw [e5]; exact hq)
    refine ⟨h.of_parts hw hd e1 e4, hl, e5, e1, e4, rfl, rfl, rfl, ⟨hj'.ext, hj'.lt, hj'.base, hj'.ex, hj'.cur, fun K' n' hf => ?_⟩⟩
    simp only [Option.some.injEq, Prod.mk.injEq] at hf
    obtain ⟨rfl, rfl⟩ := hf
    exact ⟨hc, (f, sch), todo, F, key, K0, n0, m, ht, hF, X.hkey, by rw [e5]; exact X.log, e6⟩
  unfold find
  simp only [hF, X.hkey, bind, Except.bind]
  cases hk : w.cache.lookup key with
  | some K =>
    obtain ⟨K1, n1, n, hm, rfl⟩ := h.inv.winv.cache key K (mem_of_lookup hk)
    have heq := hnc _ hm _ X.log rfl
    simp only [Except.ok.injEq, Prod.mk.injEq] at heq
    obtain ⟨rfl, rfl⟩ := heq
    exact ⟨_, _, rfl, rfl, fin _ _ _ n ⟨hwf, h.inv.winv.nn, h.inv.winv.cpu, h.inv.winv.dev, h.inv.winv.cache, h.inv.winv.ev⟩ rfl rfl rfl rfl rfl rfl⟩
  | none =>
    simp only [X.gen w.tmp, pure, Except.pure]
    refine ⟨_, _, rfl, rfl, fin _ _ _ w.tmp ⟨hwf, h.inv.winv.nn, h.inv.winv.cpu, h.inv.winv.dev, ?_, h.inv.winv.ev⟩ rfl rfl rfl rfl rfl rfl⟩
    intro k K hm
    rcases List.mem_append.1 hm with hm | hm
    · exact h.inv.winv.cache k K hm
    · simp only [List.mem_singleton, Prod.mk.injEq] at hm
      obtain ⟨rfl, rfl⟩ := hm
      exact ⟨K0, n0, w.tmp, X.log, rfl⟩

/-- The next kernel is started. -/
theorem thrStart_ok {b : Backend V} (hb : Faithful b) (hg : b.isGpu = false) {D : List Nat} {w : World V} (h : InvX b D w) (hnc : NoCollision w.log) {j : Job V} (hj : JobOK b D w j) (hc : j.cur = none) {q : Kernel × Bool} (hfd : j.found = some q)
    {p : Nat × Schedule} {todo : List (Nat × Schedule)} (ht : j.todo = p :: todo) :
    ∃ ws w', start b j w p q = .ok ((p.1, ws), w') ∧ AdvOK b D j w (spoiled w D (some p.1)) { j with todo := todo, cur := some (p.1, ws), found := none } w' := by
  have hwf : WF w.g := h.inv.winv.wf
  have hwfj : WF j.g := WF.of_ext hj.ext hwf
  have hshape : ∀ i, i < j.g.length → w.g.shape i = j.g.shape i := fun i hi => hj.ext.shape hi
  have hlen : ∀ i, i < j.g.length → i < w.g.length := fun i hi => Nat.lt_of_lt_of_le hi hj.ext.length
  have hden : ∀ i, i < j.g.length → den b.A w.g i = den b.A j.g i := fun i hi => den_ext b.A hj.ext hwf hi
  obtain ⟨S, done, h1, h2, h3, h4, h5, h6⟩ := hj.ex
  obtain ⟨f, sch⟩ := p
  obtain ⟨hS, F, hF, hsch⟩ := h2 (f, sch) (by rw [ht]; simp)
  obtain ⟨key, K0, n0, X⟩ := func_facts (g := j.g) hb hwfj (fun i hi => by rw [← hshape i hi]; exact h.inv.winv.nn i (hlen i hi)) h1 hS hF hsch (log := w.log) (fun q hq => h3 _ (by rw [ht]; simp) q hq)
  have hav : ∀ d ∈ Algo.funcRefs F.expr, AvC D w d := fun d hd => h5 d (by
    have := h4 done f (todo.map (·.1)) (by rw [hc, ht]; simp) F hF d hd
    exact this)
  have hin : ∀ i ∈ (Algo.args F.expr).1 ++ (Algo.args F.expr).2, i < j.g.length ∧ (cpuBuf (w.clean D) i).isSome := by
    intro i hi
    rcases List.mem_append.1 hi with hi | hi
    · refine ⟨(X.bufs i hi).1, avail_const (b := b) (w := w.clean D) hwf (hlen i (X.bufs i hi).1) ?_⟩
      show w.g.ctx i = .const
      rw [hj.ext.ctx (X.bufs i hi).1]; exact (X.bufs i hi).2
    · exact ⟨(X.fncs i hi).1, hav i (X.fncs i hi).2⟩
  have hrun : ∀ n tick, ∀ o : List V, (o.length : Int) = prod (w.g.shape f) →
      ∃ ws, b.run tick (machine b (K0.shift n) o (((Algo.args F.expr).1 ++ (Algo.args F.expr).2).map fun i => (den b.A w.g i).flatten)) sch (K0.shift n).body = some ws ∧ ws.Perm (storesOf b.A w.g f) := by
    intro n tick o ho
    rw [hshape f X.lt] at ho
    obtain ⟨ws, e, hp⟩ := X.run n tick o ho
    refine ⟨ws, ?_, ?_⟩
    · rw [← e]
      congr 2
      exact List.map_congr_left fun i hi => by rw [hden i (hin i hi).1]
    · have : storesOf b.A w.g f = storesOf b.A j.g f := by
        unfold storesOf
        rw [hden f X.lt, hshape f X.lt]
      rw [this]; exact hp
  have hout : f < w.g.length := hlen f X.lt
  have hcw : w.g.ctx f ≠ .const := by rw [hj.ext.ctx X.lt]; exact X.nonconst
  have hinw : ∀ i ∈ (Algo.args F.expr).1 ++ (Algo.args F.expr).2, i < w.g.length ∧ (cpuBuf (w.clean D) i).isSome := fun i hi => ⟨hlen i (hin i hi).1, (hin i hi).2⟩
  -- what follows from the step
  have fin : ∀ (w' : World V) (ws : List (Int × V)), StepX b D w (spoiled w D (some f)) w' → (∀ i l, w.cpu i = some l → w'.cpu i = some l) → CurOK b w' f ws →
      AdvOK b D j w (spoiled w D (some f)) { j with todo := todo, cur := some (f, ws), found := none } w' := by
    intro w' ws s hcpu hcur
    have hl : TLater b D w (spoiled w D (some f)) w' := ⟨by rw [s.g]; exact .refl _, by rw [s.g]; exact hwf, fun i _ hi => avC_spoiled h s hi, fun o l _ hl => ⟨l, hcpu o l hl, rfl, fun _ h => h⟩⟩
    refine ⟨h.of_parts s.inv s.dirty s.g s.grad, hl, s.log, s.g, s.grad, rfl, rfl, rfl, ⟨hj.ext.trans hl.ext, hj.lt, hj.base, ⟨S, done, h1, fun p hp => h2 p (by rw [ht]; simp [hp]),
      fun p hp q hq => by rw [s.log]; exact h3 p (by rw [ht]; simp [hp]) q hq, ?_, fun d hd => avC_spoiled h s (h5 d hd), ?_⟩, fun o ws' he => ?_, fun K n hf => by cases hf⟩⟩
    · rw [hc, ht] at h4; simpa using h4
    · rw [hc, ht] at h6; simpa using h6
    · simp only [Option.some.injEq, Prod.mk.injEq] at he
      obtain ⟨rfl, rfl⟩ := he
      exact hcur
  -- the kernel is the right one
  obtain ⟨_, p', todo', F', key', K1, n1, m, e1, e2, e3, e4, e5⟩ := hj.found q.1 q.2 hfd
  rw [ht] at e1
  obtain ⟨rfl, rfl⟩ := List.cons.inj e1
  rw [hF] at e2
  cases e2
  rw [X.hkey] at e3
  cases e3
  have heq := hnc _ e4 _ X.log rfl
  simp only [Except.ok.injEq, Prod.mk.injEq] at heq
  obtain ⟨rfl, rfl⟩ := heq
  obtain ⟨ws, w', e, hr, hcpu, hcur, _, _⟩ := thrLaunch_ok h.inv.winv h.dirty hg (sch := sch) (K := K1.shift m) hout hcw X.notIn (X.params m) hinw (hrun m _)
  unfold start
  simp only [hF, X.outs, bind, Except.bind]
  rw [X.buffer, e5, e]
  cases q.2 with
  | false => exact ⟨ws, w', rfl, fin w' ws hr hcpu hcur⟩
  | true =>
    exact ⟨ws, _, rfl, fin _ ws ⟨⟨hr.inv.wf, hr.inv.nn, hr.inv.cpu, hr.inv.dev, hr.inv.cache, hr.inv.ev⟩, ⟨hr.dirty.lt, hr.dirty.nonconst, hr.dirty.part, hr.dirty.nodev⟩, hr.g, hr.log, hr.grad, hr.mono⟩
      hcpu ⟨hcur.lt, hcur.nonconst, hcur.right, hcur.buf⟩⟩

/-- How much a call has still to do. -/
def Job.rest (j : Job V) : Nat × Nat := (j.todo.length, match j.cur with | none => (if j.found.isSome then 0 else 1) | some (_, ws) => ws.length + 2)

/-- A step succeeds. -/
theorem advance_ok {b : Backend V} (hb : Faithful b) (hg : b.isGpu = false) {D : List Nat} {w : World V} (h : InvX b D w) (hnc : NoCollision w.log) {j : Job V} (hj : JobOK b D w j) :
    ∃ j' w' D', advance b j w = .ok (j', w') ∧ AdvOK b D j w D' j' w' ∧ (j.finished = false → Prod.Lex (· < ·) (· < ·) j'.rest j.rest) := by
  unfold advance
  cases hc : j.cur with
  | some q =>
    obtain ⟨o, ws⟩ := q
    cases ws with
    | cons x ws =>
      obtain ⟨k, v⟩ := x
      obtain ⟨l, hl, a⟩ := store_ok h hj hc
      refine ⟨{ j with cur := some (o, ws) }, _, D, by simp only [hl], a, fun _ => ?_⟩
      unfold Job.rest
      rw [hc]
      exact .right _ (by simp)
    | nil =>
      refine ⟨{ j with cur := none }, w, _, rfl, done_ok h hj hc, fun _ => ?_⟩
      unfold Job.rest
      rw [hc]
      exact .right _ (by simp only [hj.notFound hc]; simp)
  | none =>
    cases ht : j.todo with
    | cons p todo =>
      cases hfd : j.found with
      | none =>
        obtain ⟨q, w', e, _, a⟩ := thrFind_ok hb h hnc hj hc ht
        refine ⟨_, w', _, by simp only [e, Except.map, hc, ht], a, fun _ => ?_⟩
        unfold Job.rest
        rw [hc, hfd]
        exact .right _ (by simp)
      | some q =>
        obtain ⟨ws, w', e, a⟩ := thrStart_ok hb hg h hnc hj hc hfd ht
        refine ⟨_, w', _, by simp only [e, Except.map], a, fun _ => ?_⟩
        unfold Job.rest
        rw [hc, ht]
        exact .left _ _ (by simp)
    | nil =>
      refine ⟨j, w, D, rfl, ⟨h, ⟨.refl _, h.inv.winv.wf, fun _ _ h => h, fun o l _ hl => ⟨l, hl, rfl, fun _ h => h⟩⟩, rfl, rfl, rfl, rfl, rfl, rfl, hj⟩, fun hf => ?_⟩
      unfold Job.finished at hf
      rw [hc, ht] at hf; cases hf
