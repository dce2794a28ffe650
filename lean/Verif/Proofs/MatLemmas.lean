import Verif.Proofs.Backend
import Verif.Proofs.FuseInv
import Verif.Proofs.Tolist
/-
Lemmas for the correctness of `materialize`.
-/
namespace Whale
open Kern Codegen Mat
variable {V : Type}

theorem flatten_ofFlat {d : V} {s : List Int} {l : List V} (hs : NonNeg s) (hl : (l.length : Int) = prod s) :
    (Tensor.ofFlat d s l).flatten = l := by
  unfold Tensor.flatten Tensor.ofFlat
  simp only
  have : (indices s).map (fun idx => l.getD (ravel s idx).toNat d) = ((indices s).map (ravel s)).map (fun k => l.getD k.toNat d) := by
    rw [List.map_map]; rfl
  rw [this, map_ravel_indices hs, ← hl]
  apply List.ext_getElem (by simp)
  intro k h1 h2
  simp [irange, h2]

/-! ### schedules never use temporaries as loop variables -/

theorem LvOK.init (F : Func) : LvOK (Sched.init F) := by
  refine ⟨fun l hl d => ?_, by simp [Sched.init]⟩
  simp only [Sched.init, List.mem_append, List.mem_map] at hl
  rcases hl with ⟨x, _, rfl⟩ | ⟨x, _, rfl⟩ <;> rfl

theorem getD_mem_or {α : Type} (l : List α) (i : Nat) (d : α) : l.getD i d ∈ l ∨ l.getD i d = d := by
  by_cases h : i < l.length
  · left; simp [List.getD, List.getElem?_eq_getElem h]
  · right; simp [List.getD, List.getElem?_eq_none (Nat.not_lt.1 h)]

theorem LvOK.setExec {s s' : Schedule} {lv : LoopVar} {e : LoopExec} (h : LvOK s) (he : Sched.setExec s lv e = .ok s') : LvOK s' := by
  unfold Sched.setExec at he
  simp only [bind, Except.bind] at he
  split at he
  · cases he
  · rename_i i hi
    cases he
    refine ⟨fun l hl d => ?_, h.2⟩
    rcases List.mem_or_eq_of_mem_set hl with hl | rfl
    · exact h.1 l hl d
    · rcases getD_mem_or s.loops i default with hm | hm
      · exact h.1 _ hm d
      · show (s.loops.getD i default).lv.name.shift d = (s.loops.getD i default).lv.name
        rw [hm]; rfl

theorem LvOK.split {s s' : Schedule} {lv : LoopVar} {f : Int} {oi : LoopVar × LoopVar} (h : LvOK s) (hl : ∀ d, lv.name.shift d = lv.name)
    (he : Sched.split s lv f = .ok (oi, s')) : LvOK s' := by
  unfold Sched.split at he
  simp only [bind, Except.bind] at he
  split at he
  · cases he
  · split at he
    · cases he
    · rename_i i hi
      cases he
      refine ⟨fun l hl d => ?_, fun x hx d => ?_⟩
      · simp only [List.mem_append, List.mem_cons, List.not_mem_nil, or_false] at hl
        rcases hl with (hl | rfl | rfl) | hl
        · exact h.1 l (List.mem_of_mem_take hl) d
        · rfl
        · rfl
        · exact h.1 l (List.mem_of_mem_drop hl) d
      · simp only [List.mem_append, List.mem_cons, List.not_mem_nil, or_false] at hx
        rcases hx with hx | rfl
        · exact h.2 x hx d
        · exact ⟨hl d, rfl, rfl⟩

theorem LvOK.spatial {s : Schedule} (h : LvOK s) {lv : LoopVar} (hl : lv ∈ Sched.spatials s) (d : Nat) : lv.name.shift d = lv.name := by
  simp only [Sched.spatials, List.mem_map, List.mem_filter] at hl
  obtain ⟨l, ⟨hl, _⟩, rfl⟩ := hl
  exact h.1 l hl d

theorem except_bind_ok {ε α β : Type} {x : Except ε α} {f : α → Except ε β} {y : β} (h : (x >>= f) = .ok y) : ∃ a, x = .ok a ∧ f a = .ok y := by
  cases x with
  | error e => cases h
  | ok a => exact ⟨a, rfl, h⟩

theorem LvOK.gpu {s s' : Schedule} (h : LvOK s) (he : Sched.gpu s = .ok s') : LvOK s' := by
  have hsp : ∀ lv ∈ Sched.spatials s, ∀ d, lv.name.shift d = lv.name := fun lv hl d => h.spatial hl d
  unfold Sched.gpu at he
  split at he
  · cases he; exact h
  · rename_i a ha
    obtain ⟨⟨⟨o, i⟩, s1⟩, e1, he⟩ := except_bind_ok he
    obtain ⟨s2, e2, he⟩ := except_bind_ok he
    exact ((h.split (hsp a (by simp [ha])) e1).setExec e2).setExec he
  · rename_i a b ha
    obtain ⟨⟨⟨o, i⟩, s1⟩, e1, he⟩ := except_bind_ok he
    obtain ⟨s2, e2, he⟩ := except_bind_ok he
    obtain ⟨s3, e3, he⟩ := except_bind_ok he
    exact (((h.split (hsp b (by simp [ha])) e1).setExec e2).setExec e3).setExec he
  · rename_i a b c ha
    obtain ⟨⟨⟨o, i⟩, s1⟩, e1, he⟩ := except_bind_ok he
    obtain ⟨s2, e2, he⟩ := except_bind_ok he
    obtain ⟨s3, e3, he⟩ := except_bind_ok he
    obtain ⟨s4, e4, he⟩ := except_bind_ok he
    exact ((((h.split (hsp c (by simp [ha])) e1).setExec e2).setExec e3).setExec e4).setExec he
  · rename_i hne _ _ _
    obtain ⟨⟨⟨o, i⟩, s1⟩, e1, he⟩ := except_bind_ok he
    obtain ⟨s2, e2, he⟩ := except_bind_ok he
    refine ((h.split (fun d => ?_) e1).setExec e2).setExec he
    cases hl : (Sched.spatials s).getLast? with
    | none => simp only [List.getLastD_eq_getLast?, hl]; rfl
    | some x => simp only [List.getLastD_eq_getLast?, hl, Option.getD_some]; exact hsp x (List.mem_of_getLast? hl) d

theorem LvOK.cpu {s s' : Schedule} (h : LvOK s) (he : Sched.cpu s = .ok s') : LvOK s' := by
  have jp : ∀ s1 : Schedule, LvOK s1 → (if 1 < (Sched.spatials s).length then
        match (Sched.spatials s).getLast? with
        | some lv => Sched.setExec s1 lv LoopExec.vectorize
        | none => pure s1
      else pure s1) = .ok s' → LvOK s' := by
    intro s1 h1 he
    split at he
    · split at he
      · exact h1.setExec he
      · cases he; exact h1
    · cases he; exact h1
  unfold Sched.cpu at he
  simp only at he
  split at he
  · obtain ⟨s1, e1, he⟩ := except_bind_ok he
    exact jp s1 (h.setExec e1) he
  · exact jp s h he

theorem LvOK.schedule {isGpu : Bool} {F : Func} {sch : Schedule} (he : Sched.schedule isGpu F = .ok sch) : LvOK sch := by
  unfold Sched.schedule at he
  split at he
  · exact (LvOK.init F).gpu he
  · exact (LvOK.init F).cpu he

/-! ### cache keys can always be computed -/

theorem ekeyE_ok {g : Graph V} {visit : Nat → List Nat → Except Err (EKey × List Nat)} {e : DExpr}
    (hv : ∀ f ∈ Algo.funcRefs e, ∀ ids, ∃ r, visit f ids = .ok r) (ids : List Nat) : ∃ r, ekeyE g visit e ids = .ok r := by
  induction e generalizing ids with
  | const c => exact ⟨_, rfl⟩
  | un op e ih => obtain ⟨r, hr⟩ := ih hv ids; exact ⟨_, by simp only [ekeyE, hr]; rfl⟩
  | bin op l r ihl ihr =>
    obtain ⟨r1, h1⟩ := ihl (fun f hf => hv f (List.mem_append_left _ hf)) ids
    obtain ⟨r2, h2⟩ := ihr (fun f hf => hv f (List.mem_append_right _ hf)) r1.2
    exact ⟨_, by simp only [ekeyE, h1, h2, bind, Except.bind]; rfl⟩
  | tern op c t f _ _ => exact ⟨_, rfl⟩
  | red op e rs ih => obtain ⟨r, hr⟩ := ih hv ids; exact ⟨_, by simp only [ekeyE, hr]; rfl⟩
  | func f idx => obtain ⟨r, hr⟩ := hv f (by simp [Algo.funcRefs]) ids; exact ⟨_, by simp only [ekeyE, hr]; rfl⟩
  | buf n idx => exact ⟨_, rfl⟩

theorem ekey_ok {g : Graph V} {t : Tbl} {S : Nat → Prop} (hS : ∀ f, S f → ∃ F, t f = some F ∧ ∀ d ∈ Algo.funcRefs F.expr, S d ∧ d < f)
    (fuel : Nat) : ∀ e lvl ids, lvl < fuel → (∀ d ∈ Algo.funcRefs e, S d ∧ d < lvl) → ∃ r, ekey g t fuel e ids = .ok r := by
  induction fuel with
  | zero => intro e lvl ids h; omega
  | succ fuel ih =>
    intro e lvl ids hl he
    unfold ekey
    apply ekeyE_ok
    intro f hf ids
    obtain ⟨h1, h2⟩ := he f hf
    obtain ⟨F, hF, hd⟩ := hS f h1
    obtain ⟨r, hr⟩ := ih F.expr f ids (by omega) hd
    exact ⟨r, by simp only [hF, hr]⟩

theorem cacheKey_ok {g : Graph V} {t : Tbl} {S : Nat → Prop} (hS : ∀ f, S f → ∃ F, t f = some F ∧ ∀ d ∈ Algo.funcRefs F.expr, S d ∧ d < f)
    {fuel f : Nat} {F : Func} (hf : S f) (hF : t f = some F) (hl : f < fuel) (sch : Schedule) : ∃ k, cacheKey g t fuel F sch = .ok k := by
  obtain ⟨F', hF', hd⟩ := hS f hf
  rw [hF] at hF'; cases hF'
  obtain ⟨r, hr⟩ := ekey_ok (g := g) hS fuel F.expr f [] hl hd
  exact ⟨_, by simp only [cacheKey, hr]; rfl⟩

/-! ### input memory -/

/-- Parameter names after `out`. -/
def argNames (F : Func) : List VName :=
  (List.range (argsOf F).bufs.length).map (VName.arg false) ++
  (List.range (argsOf F).fncs.length).map (fun k => VName.arg true ((argsOf F).bufs.length + k))

theorem argNames_nodup (F : Func) : (argNames F).Nodup := by
  unfold argNames
  rw [List.nodup_append]
  refine ⟨?_, ?_, ?_⟩
  · unfold List.Nodup; rw [List.pairwise_map]; exact List.nodup_range.imp (fun h e => h (by simpa using e))
  · unfold List.Nodup; rw [List.pairwise_map]; exact List.nodup_range.imp (fun h e => h (by simpa using e))
  · intro a ha b hb
    simp only [List.mem_map] at ha hb
    obtain ⟨x, _, rfl⟩ := ha
    obtain ⟨y, _, rfl⟩ := hb
    simp

theorem zipIdx_map_snd {α β : Type} (l : List α) (f : Nat → β) : (l.zipIdx.map fun p => f p.2) = (List.range l.length).map f := by
  apply List.ext_getElem (by simp)
  intro k h1 h2
  simp

theorem params_names {g : Graph V} {t : Tbl} {F : Func} {dt : DType} : (params g t (argsOf F) dt).tail.map (·.1) = argNames F := by
  simp only [params, List.tail_cons, List.map_append, List.map_map, argNames, Function.comp_def]
  rw [zipIdx_map_snd, zipIdx_map_snd (argsOf F).fncs (fun k => VName.arg true ((argsOf F).bufs.length + k))]

theorem codegen_params {g : Graph V} {t : Tbl} {F : Func} {sch : Schedule} {args : Args} {n n' : Nat} {K : Kernel}
    (h : codegen g t F sch args n = .ok (K, n')) : K.params = params g t args F.outDtype := by
  unfold codegen at h
  obtain ⟨x, _, h⟩ := except_bind_ok h
  cases h; rfl

theorem fetch_flatten' {t : Tensor V} {j : List Int} (h : ValidIdx t.shape j) :
    Kern.fetch t.flatten (ravel t.shape j) = some (t.get j) := by
  have := ravel_bounds h
  simp [Kern.fetch, this.1, flatten_getElem? h]

theorem DWF.bufs {g : Graph V} {S : List LoopIndex} {lvl : Nat} {e : DExpr} (h : DWF g S lvl e) :
    ∀ b ∈ Algo.bufRefs e, b < g.length ∧ b ≤ lvl ∧ g.ctx b = .const := by
  induction e with
  | const c => simp [Algo.bufRefs]
  | un op e ih => exact ih h.2
  | bin op l r ihl ihr =>
    intro f hf
    rcases List.mem_append.1 hf with hf | hf
    · exact ihl h.2.1 f hf
    · exact ihr h.2.2 f hf
  | tern op c t f iht ihf =>
    intro x hx
    rcases List.mem_append.1 hx with hx | hx
    · exact iht h.2.2.1 x hx
    · exact ihf h.2.2.2 x hx
  | red => exact h.elim
  | func f idx => simp [Algo.bufRefs]
  | buf n idx =>
    intro b hb
    simp only [Algo.bufRefs, List.mem_singleton] at hb
    subst hb
    exact ⟨h.1, h.2.1, h.2.2.1⟩

theorem RootWF.bufs {g : Graph V} {a : Nat} {e : DExpr} (h : RootWF g a e) : ∀ b ∈ Algo.bufRefs e, b < g.length ∧ b ≤ a ∧ g.ctx b = .const := by
  cases e with
  | red op e rs => exact DWF.bufs (e := e) h.2.2
  | _ => exact DWF.bufs (g := g) (S := Algo.outLoops g a) h

/-- The memory of a kernel whose inputs hold the elements of the arrays it reads. -/
theorem memOK_mem [Lim] {b : Backend V} {g : Graph V} {t : Tbl} {F : Func} {a n n' : Nat} {sch : Schedule} {K : Kernel} {o : List V} (hwf : WF g)
    (hE : EntryOK g a F) (hK : codegen g t F sch (argsOf F) n = .ok (K, n')) {m : Machine V} (hL : LimOK m.ar)
    (hmm : m.mem = (machine b K o (((argsOf F).bufs ++ (argsOf F).fncs).map fun i => (den b.A g i).flatten)).mem)
    (hfit : ∀ i ∈ (argsOf F).bufs ++ (argsOf F).fncs, Fit (room (g.shape i))) :
    MemOK g (argsOf F) m (denRd b.A g) := by
  have hnames : K.params.tail.map (·.1) = argNames F := by rw [codegen_params hK, params_names]
  have hmem : ∀ k (hk : k < (argNames F).length) (hk' : k < ((argsOf F).bufs ++ (argsOf F).fncs).length),
      (machine b K o (((argsOf F).bufs ++ (argsOf F).fncs).map fun i => (den b.A g i).flatten)).mem (argNames F)[k]
        = some (den b.A g ((argsOf F).bufs ++ (argsOf F).fncs)[k]).flatten := by
    intro k hk hk'
    simp only [machine, hnames]
    rw [lookup_zip_getElem (argNames_nodup F) (by simp [argNames]) hk]
    rw [List.getElem_map]
  have hval : ∀ i < g.length, ∀ idx v, denRd b.A g i idx = some v → Kern.fetch (den b.A g i).flatten (ravel (g.shape i) idx) = some v := by
    intro i hi idx v hv
    unfold denRd at hv
    split at hv
    · rename_i hvi
      cases hv
      have hs := den_shape b.A hwf hi
      rw [← hs] at hvi ⊢
      exact fetch_flatten' hvi
    · cases hv
  have hvi : ∀ i idx v, denRd b.A g i idx = some v → i < g.length → ValidIdx (g.shape i) idx := by
    intro i idx v hv hi
    unfold denRd at hv
    split at hv
    · rename_i h; exact h
    · cases hv
  refine ⟨hL, fun f hf idx v hv => ?_, fun c hc idx v hv => ?_⟩
  · have hk : (argsOf F).fncs.idxOf f < (argsOf F).fncs.length := List.idxOf_lt_length_of_mem hf
    have h1 := hmem ((argsOf F).bufs.length + (argsOf F).fncs.idxOf f) (by simp only [argNames, List.length_append, List.length_map, List.length_range]; omega)
      (by simp only [List.length_append]; omega)
    have hlt : f < g.length := by
        have := RootWF.refs_lt hE.wf f (mem_dedup.1 hf)
        have := hE.lt
        omega
    refine ⟨(den b.A g f).flatten, ?_, ?_, hvi f idx v hv hlt, hfit f (List.mem_append_right _ hf)⟩
    · have e1 : (argNames F)[(argsOf F).bufs.length + (argsOf F).fncs.idxOf f]'(by simp only [argNames, List.length_append, List.length_map, List.length_range]; omega)
          = VName.arg true ((argsOf F).bufs.length + (argsOf F).fncs.idxOf f) := by
        simp [argNames, List.getElem_append]
      rw [e1] at h1
      rw [hmm, h1]
      simp [List.getElem_append]
    · exact hval f hlt idx v hv
  · have hk : (argsOf F).bufs.idxOf c < (argsOf F).bufs.length := List.idxOf_lt_length_of_mem hc
    have h1 := hmem ((argsOf F).bufs.idxOf c) (by simp only [argNames, List.length_append, List.length_map, List.length_range]; omega)
      (by simp only [List.length_append]; omega)
    obtain ⟨hlt, hcst⟩ : c < g.length ∧ g.ctx c = .const :=
      have := RootWF.bufs hE.wf c (mem_dedup.1 hc)
      ⟨this.1, this.2.2⟩
    have hvc := hvi c idx v hv hlt
    have hn := nonview_layout hwf hlt (by rw [hcst]; rfl)
    refine ⟨(den b.A g c).flatten, ?_, ?_, valid_nonneg hvc, by rw [hn.1]; exact strides_nonneg hvc, by rw [hn.2], by
      rw [hn.1, hn.2, dot_strides hvc.length, Int.zero_add]
      exact (hfit c (List.mem_append_left _ hc)).ravel hvc⟩
    · have e1 : (argNames F)[(argsOf F).bufs.idxOf c]'(by simp only [argNames, List.length_append, List.length_map, List.length_range]; omega)
          = VName.arg false ((argsOf F).bufs.idxOf c) := by
        simp [argNames, List.getElem_append, hk]
      rw [e1] at h1
      rw [hmm, h1]
      simp [List.getElem_append, hk]
    · rw [hn.1, hn.2, dot_strides hvc.length, Int.zero_add]
      exact hval c hlt idx v hv

/-- The memory of a kernel whose inputs hold the elements of the arrays it reads. -/
theorem memOK_machine {b : Backend V} {g : Graph V} {t : Tbl} {F : Func} {a n n' : Nat} {sch : Schedule} {K : Kernel} {o : List V} (hwf : WF g)
    (hE : EntryOK g a F) (hK : codegen g t F sch (argsOf F) n = .ok (K, n')) :
    MemOK g (argsOf F) (machine b K o (((argsOf F).bufs ++ (argsOf F).fncs).map fun i => (den b.A g i).flatten)) (denRd b.A g) :=
  memOK_mem hwf hE hK (by intro m hm; simp only [machine] at hm; split at hm <;> cases hm) rfl (fun _ _ => fit_none)

end Whale
