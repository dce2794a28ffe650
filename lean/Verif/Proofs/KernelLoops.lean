import Verif.Model.Parallel
import Verif.Proofs.KernelR
/-
Spatial loops around a kernel body: sequential and concurrent execution.
-/
namespace Whale
open Algo Codegen Kern
variable {V : Type}

/-! ### interleavings -/

theorem Interleave.perm {α : Type} {ls : List (List α)} {ws : List α} (h : Interleave ls ws) : ws.Perm ls.flatten := by
  induction h with
  | nil h =>
    rename_i ls
    have : ls.flatten = [] := by simpa [List.flatten_eq_nil_iff] using h
    rw [this]
  | @step pre post l w ws _ ih =>
    rw [List.flatten_append, List.flatten_cons] at ih ⊢
    rw [List.cons_append]
    exact (ih.cons w).trans List.perm_middle.symm

theorem Interleave.of_nil_head {α : Type} {ls : List (List α)} {ws : List α} (h : Interleave ls ws) : Interleave ([] :: ls) ws := by
  induction h with
  | nil h => exact .nil (by simpa using h)
  | @step pre post l w ws _ ih =>
    exact Interleave.step (pre := [] :: pre) ih

theorem Interleave.flatten {α : Type} (ls : List (List α)) : Interleave ls ls.flatten := by
  induction ls with
  | nil => exact .nil (by simp)
  | cons l ls ih =>
    induction l with
    | nil => exact ih.of_nil_head
    | cons w l ih' => exact Interleave.step (pre := []) ih'

/-! ### statements without parallel loops are deterministic -/

def noPar : Stmt → Bool
  | .seq s t => noPar s && noPar t
  | .loop mode _ _ b => !isPar mode && noPar b
  | .ite _ t f => noPar t && noPar f
  | _ => true

theorem seqLoop_det {step : KEnv V → Int → Option (St V) → Prop} {f : KEnv V → Int → Option (St V)} (h : ∀ σ i r, step σ i r ↔ r = f σ i)
    (is : List Int) : ∀ (st : St V) r, seqLoop step is st r ↔ r = is.foldlM (fun (st : St V) i =>
      if st.ret then pure st else do
        let r ← f st.env i
        pure ⟨KEnv.leave st.env r.env, st.writes ++ r.writes, r.ret⟩) st := by
  induction is with
  | nil => intro st r; simp [seqLoop]
  | cons i is ih =>
    intro st r
    rw [seqLoop, List.foldlM_cons]
    split
    · rename_i hr
      simp only [pure, Option.bind_eq_bind, Option.bind_some]
      have : ∀ is : List Int, is.foldlM (fun (st : St V) i =>
          if st.ret then some st else (f st.env i).bind fun r =>
            some (⟨KEnv.leave st.env r.env, st.writes ++ r.writes, r.ret⟩ : St V)) st = some st := by
        intro is
        induction is with
        | nil => rfl
        | cons j js ihj => rw [List.foldlM_cons]; simp only [hr, if_true, Option.bind_eq_bind, Option.bind_some]; exact ihj
      rw [this is]
    · simp only [andThen, h]
      constructor
      · rintro ⟨o, rfl, ho⟩
        cases hf : f st.env i with
        | none => simp only [hf] at ho; simp [ho]
        | some s1 =>
          simp only [hf] at ho
          rw [ih] at ho
          simpa using ho
      · intro hr
        refine ⟨f st.env i, rfl, ?_⟩
        cases hf : f st.env i with
        | none => simpa [hf] using hr
        | some s1 =>
          simp only
          rw [ih]
          simpa [hf] using hr

theorem par_det {m : Machine V} {s : Stmt} (h : noPar s = true) : ∀ (σ : KEnv V) r, par m s σ r ↔ r = exec m s σ := by
  induction s with
  | seq s t ihs iht =>
    intro σ r
    simp only [noPar, Bool.and_eq_true] at h
    simp only [par, andThen, ihs h.1, iht h.2, exec]
    constructor
    · rintro ⟨o, rfl, ho⟩
      cases hs : exec m s σ with
      | none => simp only [hs] at ho; simpa using ho
      | some r1 =>
        simp only [hs] at ho
        simp only [Option.bind_eq_bind, Option.bind_some]
        split at ho
        · rename_i hr; simpa [hr] using ho
        · rename_i hr
          obtain ⟨o, rfl, ho⟩ := ho
          simp only [hr]
          cases ht : exec m t r1.env with
          | none => simp only [ht] at ho; simpa using ho
          | some r2 => simp only [ht] at ho; simpa using ho
    · intro hr
      refine ⟨_, rfl, ?_⟩
      cases hs : exec m s σ with
      | none => simpa [hs] using hr
      | some r1 =>
        simp only [hs, Option.bind_eq_bind, Option.bind_some] at hr ⊢
        split
        · rename_i h1; simpa [h1] using hr
        · rename_i h1
          simp only [h1] at hr
          refine ⟨_, rfl, ?_⟩
          cases ht : exec m t r1.env with
          | none => simpa [ht] using hr
          | some r2 => simpa [ht] using hr
  | loop mode x n b ih =>
    intro σ r
    simp only [noPar, Bool.and_eq_true, Bool.not_eq_true'] at h
    simp only [par, exec, h.1]
    split
    · rename_i hx; simp [hx]
    · rename_i hx
      rw [seqLoop_det (f := fun σ i => exec m b (σ.set x (.I i))) (fun σ i r => ih h.2 _ r)]
      simp
  | ite c t f iht ihf =>
    intro σ r
    simp only [noPar, Bool.and_eq_true] at h
    simp only [par, exec]
    cases hc : evalKI m.ar σ c with
    | none => simp
    | some b =>
      simp only [andThen, Option.bind_eq_bind, Option.bind_some]
      by_cases hb : b = 0
      · simp only [hb, ne_eq, not_true, if_false, ihf h.2]
        constructor
        · rintro ⟨o, rfl, ho⟩
          cases hX : exec m f σ with
          | none => rw [hX] at ho; simpa using ho
          | some r1 => rw [hX] at ho; simpa using ho
        · intro hr
          refine ⟨_, rfl, ?_⟩
          cases hX : exec m f σ with
          | none => simpa [hX] using hr
          | some r1 => simpa [hX] using hr
      · simp only [hb, ne_eq, not_false_eq_true, if_true, iht h.1]
        constructor
        · rintro ⟨o, rfl, ho⟩
          cases hX : exec m t σ with
          | none => rw [hX] at ho; simpa using ho
          | some r1 => rw [hX] at ho; simpa using ho
        · intro hr
          refine ⟨_, rfl, ?_⟩
          cases hX : exec m t σ with
          | none => simpa [hX] using hr
          | some r1 => simpa [hX] using hr
  | _ => intro σ r; rfl

/-! ### spatial loops -/

/-- Variables `ns` bound to `vs`. -/
def KEnv.binds (σ : KEnv V) : List VName → List Int → KEnv V
  | n :: ns, v :: vs => KEnv.binds (σ.set n (.I v)) ns vs
  | _, _ => σ

/-- A CPU execution mode of a spatial loop. -/
def cpuMode : LoopExec → Bool
  | .gpuBlock _ => false
  | .gpuThread _ => false
  | _ => true

theorem leave_set {σ : KEnv V} {x : VName} {v : Val V} (h : σ x = none) : KEnv.leave σ (σ.set x v) = σ := by
  apply leave_gen
  · intro y hy
    exact set_ne _ _ (by rintro rfl; rw [h] at hy; cases hy)
  · intro y hy; exact hy

theorem leave_le {σ σ' : KEnv V} (h : Le σ σ') : KEnv.leave σ σ' = σ := by
  apply leave_gen
  · intro y hy
    obtain ⟨v, hv⟩ := Option.isSome_iff_exists.1 hy
    rw [hv]; exact h _ _ hv
  · intro y hy; exact hy

theorem leave_leave_set {σ σ' : KEnv V} {x : VName} {v : Val V} (hx : σ x = none) (h : Le (σ.set x v) σ') : KEnv.leave σ σ' = σ := by
  apply leave_le
  intro y w hy
  apply h
  rw [set_ne _ _ (by rintro rfl; rw [hx] at hy; cases hy)]; exact hy

/-- The outcome of a nest of spatial loops whose body performs the single store `w idx`. -/
structure NestOK (m : Machine V) (s : Stmt) (σ : KEnv V) (ws : List (Int × V)) : Prop where
  seq : ∃ σ', exec m s σ = some ⟨σ', ws, false⟩ ∧ Le σ σ'
  par : ∀ r, Kern.par m s σ r → ∃ σ' ws', r = some ⟨σ', ws', false⟩ ∧ Le σ σ' ∧ ws'.Perm ws
  ex : ∃ r, Kern.par m s σ r

theorem NestOK.loop {m : Machine V} {mode : LoopExec} {x : VName} {n : Int} {b : Stmt} {σ : KEnv V} {W : Int → List (Int × V)}
    (hx : σ x = none) (h : ∀ i ∈ irange n, NestOK m b (σ.set x (.I i)) (W i)) :
    NestOK m (.loop mode x n b) σ ((irange n).flatMap W) := by
  have hseq : ∀ (is : List Int) (acc : List (Int × V)), (∀ i ∈ is, NestOK m b (σ.set x (.I i)) (W i)) →
      is.foldlM (fun (st : St V) i => if st.ret then pure st else do
        let r ← exec m b (st.env.set x (.I i))
        pure ⟨KEnv.leave st.env r.env, st.writes ++ r.writes, r.ret⟩) ⟨σ, acc, false⟩ = some ⟨σ, acc ++ is.flatMap W, false⟩ := by
    intro is
    induction is with
    | nil => intro acc _; simp
    | cons i is ih =>
      intro acc h
      obtain ⟨σ', e, hl⟩ := (h i (by simp)).seq
      rw [List.foldlM_cons]
      simp only [Bool.false_eq_true, if_false, e, Option.bind_eq_bind, Option.bind_some, pure, leave_leave_set hx hl]
      have := ih (acc ++ W i) (fun j hj => h j (by simp [hj]))
      simp only [pure, Option.bind_eq_bind] at this
      rw [this]
      simp [List.append_assoc]
  have hseqR : ∀ (is : List Int) (acc acc' : List (Int × V)), acc'.Perm acc → (∀ i ∈ is, NestOK m b (σ.set x (.I i)) (W i)) →
      (∀ r, seqLoop (fun σ i => Kern.par m b (σ.set x (.I i))) is ⟨σ, acc', false⟩ r →
        ∃ ws', r = some ⟨σ, ws', false⟩ ∧ ws'.Perm (acc ++ is.flatMap W)) ∧
      ∃ r, seqLoop (fun σ i => Kern.par m b (σ.set x (.I i))) is ⟨σ, acc', false⟩ r := by
    intro is
    induction is with
    | nil =>
      intro acc acc' hp _
      refine ⟨fun r hr => ?_, _, rfl⟩
      simp only [seqLoop] at hr
      exact ⟨acc', hr, by simpa using hp⟩
    | cons i is ih =>
      intro acc acc' hp h
      have hi := h i (by simp)
      constructor
      · intro r hr
        simp only [seqLoop, Bool.false_eq_true, if_false, andThen] at hr
        obtain ⟨o, ho, hk⟩ := hr
        obtain ⟨σ', ws', rfl, hl, hp'⟩ := hi.par o ho
        simp only [leave_leave_set hx hl] at hk
        obtain ⟨ws'', e, hp''⟩ := (ih (acc ++ W i) (acc' ++ ws') (hp.append hp') (fun j hj => h j (by simp [hj]))).1 r hk
        exact ⟨ws'', e, by rw [List.flatMap_cons, ← List.append_assoc]; exact hp''⟩
      · obtain ⟨o, ho⟩ := hi.ex
        obtain ⟨σ', ws', rfl, hl, hp'⟩ := hi.par o ho
        obtain ⟨r, hr⟩ := (ih (acc ++ W i) (acc' ++ ws') (hp.append hp') (fun j hj => h j (by simp [hj]))).2
        refine ⟨r, ?_⟩
        simp only [seqLoop, Bool.false_eq_true, if_false, andThen]
        refine ⟨_, ho, ?_⟩
        simp only [leave_leave_set hx hl]
        exact hr
  refine ⟨⟨σ, ?_, Le.refl _⟩, ?_, ?_⟩
  · simp only [exec, hx]
    simpa using hseq (irange n) [] h
  · intro r hr
    simp only [Kern.par, hx, Option.isSome_none, Bool.false_eq_true, if_false] at hr
    split at hr
    · obtain ⟨f, hf, ⟨hg, ws, hi, rfl⟩ | ⟨hg, rfl⟩⟩ := hr
      · refine ⟨σ, ws, rfl, Le.refl _, hi.perm.trans ?_⟩
        rw [← List.flatMap_def]
        have : ∀ is : List Int, (∀ i ∈ is, i ∈ irange n) → (is.flatMap fun i => writesOf (f i)).Perm (is.flatMap W) := by
          intro is
          induction is with
          | nil => intro _; exact List.Perm.refl _
          | cons i is ih =>
            intro his
            obtain ⟨σ', ws', e, hl, hp'⟩ := (h i (his i (by simp))).par _ (hf i (his i (by simp)))
            rw [List.flatMap_cons, List.flatMap_cons]
            refine List.Perm.append ?_ (ih (fun j hj => his j (by simp [hj])))
            rw [e]; exact hp'
        exact this _ (fun _ hi => hi)
      · exact absurd (fun i hi => by
          obtain ⟨σ', ws', e, hl, hp'⟩ := (h i hi).par _ (hf i hi)
          exact ⟨_, e, leave_leave_set hx hl, rfl⟩) hg
    · obtain ⟨ws', e, hp⟩ := (hseqR (irange n) [] [] (List.Perm.refl _) h).1 r hr
      exact ⟨σ, ws', e, Le.refl _, by simpa using hp⟩
  · simp only [Kern.par, hx, Option.isSome_none, Bool.false_eq_true, if_false]
    split
    · have hch : ∀ i, ∃ o, i ∈ irange n → Kern.par m b (σ.set x (.I i)) o := by
        intro i
        by_cases hi : i ∈ irange n
        · obtain ⟨o, ho⟩ := (h i hi).ex; exact ⟨o, fun _ => ho⟩
        · exact ⟨none, fun h => absurd h hi⟩
      refine ⟨some ⟨σ, ((irange n).map fun i => writesOf (Classical.choose (hch i))).flatten, false⟩, fun i => Classical.choose (hch i),
        fun i hi => Classical.choose_spec (hch i) hi, Or.inl ⟨fun i hi => ?_, _, Interleave.flatten _, rfl⟩⟩
      obtain ⟨σ', ws', e, hl, hp'⟩ := (h i hi).par _ (Classical.choose_spec (hch i) hi)
      exact ⟨_, e, leave_leave_set hx hl, rfl⟩
    · exact (hseqR (irange n) [] [] (List.Perm.refl _) h).2

theorem map_flatMap_cons {α : Type} (l : List Int) (f : List (List Int)) (w : List Int → α) :
    (l.flatMap fun i => f.map (i :: ·)).map w = l.flatMap fun i => f.map (fun v => w (i :: v)) := by
  rw [List.map_flatMap]
  simp [Function.comp_def]

theorem genLoops_ok {m : Machine V} {body : Stmt} : ∀ (ls : List LoopSched) (σ : KEnv V) (w : List Int → Int × V),
    (∀ l ∈ ls, l.kind = .spatial ∧ cpuMode l.exec = true) → (ls.map (·.lv.name)).Nodup → (∀ l ∈ ls, σ l.lv.name = none) →
    (∀ v ∈ indices (ls.map (·.lv.extent)), NestOK m body (σ.binds (ls.map (·.lv.name)) v) [w v]) →
    NestOK m (genLoops ls body) σ ((indices (ls.map (·.lv.extent))).map w) := by
  intro ls
  induction ls with
  | nil =>
    intro σ w _ _ _ h
    simpa [indices, genLoops, KEnv.binds] using h [] (by simp [indices])
  | cons l ls ih =>
    intro σ w hk hn hf h
    rw [List.map_cons, List.nodup_cons] at hn
    have hl := hk l (by simp)
    have key : NestOK m (.loop l.exec l.lv.name l.lv.extent (genLoops ls body)) σ
        ((irange l.lv.extent).flatMap fun i => (indices (ls.map (·.lv.extent))).map (fun v => w (i :: v))) := by
      apply NestOK.loop (hf l (by simp))
      intro i hi
      apply ih _ (fun v => w (i :: v)) (fun x hx => hk x (by simp [hx])) hn.2
      · intro x hx
        rw [set_ne _ _ (by rintro e; exact hn.1 (List.mem_map.2 ⟨x, hx, e⟩))]
        exact hf x (by simp [hx])
      · intro v hv
        exact h (i :: v) (by
          simp only [List.map_cons, indices, List.mem_flatMap, List.mem_map]
          exact ⟨i, hi, v, hv, rfl⟩)
    have hg : genLoops (l :: ls) body = .loop l.exec l.lv.name l.lv.extent (genLoops ls body) := by
      rw [genLoops, if_neg (by simp [hl.1])]
      have := hl.2
      cases he : l.exec <;> simp_all [cpuMode]
    rw [hg, List.map_cons, indices, map_flatMap_cons]
    exact key

theorem genLoops_reduce {body : Stmt} {ls rs : List LoopSched} (h : ∀ l ∈ rs, l.kind = .reduce) : genLoops (ls ++ rs) body = genLoops ls body := by
  induction ls with
  | nil =>
    induction rs with
    | nil => rfl
    | cons r rs ih =>
      have := ih (fun l hl => h l (by simp [hl]))
      rw [List.nil_append] at this ⊢
      rw [← this]
      conv => lhs; rw [genLoops]
      rw [if_pos (by simp [h r (by simp)])]
  | cons l ls ih =>
    rw [List.cons_append, genLoops, genLoops, ih]

theorem NestOK.det {m : Machine V} {s : Stmt} {σ σ' : KEnv V} {ws : List (Int × V)} (hs : noPar s = true)
    (h : exec m s σ = some ⟨σ', ws, false⟩) (hl : Le σ σ') : NestOK m s σ ws :=
  ⟨⟨σ', h, hl⟩, fun r hr => ⟨σ', ws, by rw [(par_det hs σ r).1 hr, h], hl, List.Perm.refl _⟩, ⟨_, (par_det hs σ _).2 rfl⟩⟩

end Whale
