import Verif.Spec.Source
import Verif.Proofs.Stopped
/-
For C64: calls other than `materialize` do not look at the kernel cache.
-/
namespace Whale
open Mat Hist
variable {V : Type}

/-- The world without its kernel cache. -/
def World.strip (w : World V) : World V := { w with cache := [], hits := fun _ => 0, hist := [] }

theorem foldlM_map {α β : Type} {f : β → α → Except Err β} {k : β → β} (hf : ∀ w x, f (k w) x = (f w x).map k) :
    ∀ (l : List α) (w : β), l.foldlM f (k w) = (l.foldlM f w).map k := by
  intro l
  induction l with
  | nil => intro w; rfl
  | cons x l ih =>
    intro w
    rw [List.foldlM_cons, List.foldlM_cons, hf]
    cases h : f w x with
    | error e => rfl
    | ok w1 => exact ih w1

theorem strip_fillCpu (A : Scalar V) (w : World V) (i : Nat) : fillCpu A w.strip i = (fillCpu A w i).strip := by
  unfold fillCpu
  have : cpuBuf w.strip i = cpuBuf w i := rfl
  rw [this]
  cases cpuBuf w i <;> rfl

theorem strip_foldl_fillCpu (A : Scalar V) (l : List Nat) (w : World V) : l.foldl (fillCpu A) w.strip = (l.foldl (fillCpu A) w).strip := by
  induction l generalizing w with
  | nil => rfl
  | cons i l ih => rw [List.foldl_cons, List.foldl_cons, strip_fillCpu, ih]

theorem strip_toDev (b : Backend V) (w : World V) (p : Nat × Nat) : toDev b w.strip p = (toDev b w p).map World.strip := by
  have ha : ∀ i, alloc b w.strip i = (alloc b w i).map World.strip := by
    intro i
    unfold alloc
    have h1 : w.strip.dev i = w.dev i := rfl
    have h2 : bufLen w.strip i = bufLen w i := rfl
    rw [h1, h2]
    cases w.dev i with
    | some l => rfl
    | none => simp only; split <;> rfl
  have hh : ∀ (w : World V) i k, htod w.strip i k = (htod w i k).strip := by
    intro w i k
    unfold htod
    have h1 : cpuBuf w.strip i = cpuBuf w i := rfl
    rw [h1]
    cases cpuBuf w i with
    | none => rfl
    | some l => simp only; split <;> rfl
  unfold toDev
  rw [ha]
  cases h : alloc b w p.1 with
  | error e => rfl
  | ok w1 =>
    show Except.ok (htod w1.strip p.1 p.2) = .ok (htod w1 p.1 p.2).strip
    rw [hh]

theorem strip_tolist (b : Backend V) (w : World V) (a : Nat) : tolist b w.strip a = (tolist b w a).map fun p => (p.1, p.2.strip) := by
  have he : ensureCpu b w.strip (base w.g a) = (ensureCpu b w (base w.g a)).map World.strip := by
    unfold ensureCpu
    have h1 : cpuBuf w.strip (base w.g a) = cpuBuf w (base w.g a) := rfl
    have h2 : w.strip.dev (base w.g a) = w.dev (base w.g a) := rfl
    rw [h1, h2]
    cases cpuBuf w (base w.g a) with
    | some l => rfl
    | none =>
      simp only
      split
      · cases w.dev (base w.g a) <;> rfl
      · rfl
  unfold tolist
  have hg : w.strip.g = w.g := rfl
  rw [hg, he]
  cases ensureCpu b w (base w.g a) with
  | error e => rfl
  | ok w1 =>
    show (match cpuBuf w1.strip (base w1.g a) with
      | some data => _
      | none => _) = _
    have h1 : cpuBuf w1.strip (base w1.g a) = cpuBuf w1 (base w1.g a) := rfl
    simp only [h1, Except.map, bind, Except.bind]
    cases cpuBuf w1 (base w1.g a) with
    | none => rfl
    | some data =>
      have hg1 : w1.strip.g = w1.g := rfl
      simp only [hg1]
      cases ND.toNdlist data (w1.g.shape a) (w1.g.strides a) (w1.g.offset a) <;> rfl

theorem strip_accum (w : World V) (p : Nat × Nat) : Bwd.accum w.strip p = (Bwd.accum w p).map World.strip := by
  unfold Bwd.accum
  have h1 : w.strip.grad p.1 = w.grad p.1 := rfl
  have hg : w.strip.g = w.g := rfl
  rw [h1, hg]
  cases w.grad p.1 with
  | none => rfl
  | some o => simp only [bind, Except.bind]; cases ND.binary w.g .Add o p.2 <;> rfl

theorem strip_visit (A : Scalar V) (w : World V) (t : Nat) : Bwd.visit A w.strip t = (Bwd.visit A w t).map World.strip := by
  unfold Bwd.visit
  have h1 : w.strip.grad t = w.grad t := rfl
  have hg : w.strip.g = w.g := rfl
  rw [h1, hg]
  cases w.grad t with
  | none => rfl
  | some gr =>
    simp only [bind, Except.bind]
    cases Bwd.rule A w.g t gr with
    | error e => rfl
    | ok q => exact foldlM_map strip_accum _ { w with g := q.2 }

theorem strip_seed (A : Scalar V) (w : World V) (y : Nat) : Bwd.seed A w.strip y = (Bwd.seed A w y).strip := by
  unfold Bwd.seed
  have h1 : w.strip.grad y = w.grad y := rfl
  rw [h1]
  cases w.grad y <;> rfl

theorem strip_backward (A : Scalar V) (w : World V) (y : Nat) : Bwd.backward A w.strip y = (Bwd.backward A w y).map World.strip := by
  unfold Bwd.backward
  simp only [strip_seed]
  have hg : (Bwd.seed A w y).strip.g = (Bwd.seed A w y).g := rfl
  rw [hg]
  simp only [bind, Except.bind]
  cases Bwd.dfs (Bwd.seed A w y).g (y + 1) y ([], []) with
  | error e => rfl
  | ok q => exact foldlM_map (strip_visit A) _ _

theorem strip_made (w : World V) (p : Nat × Graph V) : made w.strip p = (made w p).map fun q => (q.1, q.2.strip) := rfl

theorem strip_madeE (w : World V) (p : Except Err (Nat × Graph V)) : madeE w.strip p = (madeE w p).map fun q => (q.1, q.2.strip) := by cases p <;> rfl

theorem strip_exec1 (b : Backend V) (w : World V) {c : Call V} (hm : ∀ a, c ≠ .materialize a) : exec1 b w.strip c = (exec1 b w c).map fun q => (q.1, q.2.strip) := by
  cases c <;> first | exact strip_madeE w _ | exact strip_made w _ | rfl | skip
  case materialize a => exact absurd rfl (hm a)
  case tolist a => simp only [exec1, strip_tolist]; cases tolist b w a <;> rfl
  case backward a => simp only [exec1, strip_backward]; cases Bwd.backward b.A w a <;> rfl

/-- `backward` and its interruptions keep the cache, the counters and the log. -/
structure Kept0 (w w' : World V) : Prop where
  cache : w'.cache = w.cache
  hits : w'.hits = w.hits
  hist : w'.hist = w.hist

theorem map_strip_ok {w' : World V} {x : Except Err (World V)} (h : x.map World.strip = .ok w') : ∃ w1, x = .ok w1 ∧ w' = w1.strip := by
  cases x with
  | error e => cases h
  | ok w1 => cases h; exact ⟨w1, rfl, rfl⟩

theorem accum_kept {w w' : World V} {p : Nat × Nat} (h : Bwd.accum w p = .ok w') : Kept0 w w' := by
  unfold Bwd.accum at h
  split at h
  · cases h; exact ⟨rfl, rfl, rfl⟩
  · obtain ⟨q, _, h⟩ := except_bind_ok h
    cases h; exact ⟨rfl, rfl, rfl⟩

theorem foldlM_kept {α : Type} {f : World V → α → Except Err (World V)} (hf : ∀ {w w' x}, f w x = .ok w' → Kept0 w w') :
    ∀ (l : List α) {w w' : World V}, l.foldlM f w = .ok w' → Kept0 w w' := by
  intro l
  induction l with
  | nil => intro w w' h; cases h; exact ⟨rfl, rfl, rfl⟩
  | cons x l ih =>
    intro w w' h
    rw [List.foldlM_cons] at h
    obtain ⟨w1, h1, h2⟩ := except_bind_ok h
    have a := hf h1
    have c := ih h2
    exact ⟨c.cache.trans a.cache, c.hits.trans a.hits, c.hist.trans a.hist⟩

theorem visit_kept {A : Scalar V} {w w' : World V} {t : Nat} (h : Bwd.visit A w t = .ok w') : Kept0 w w' := by
  unfold Bwd.visit at h
  split at h
  · cases h
  · obtain ⟨q, _, h⟩ := except_bind_ok h
    have := foldlM_kept accum_kept _ h
    exact ⟨this.cache, this.hits, this.hist⟩

theorem seed_kept (A : Scalar V) (w : World V) (y : Nat) : Kept0 w (Bwd.seed A w y) := by
  unfold Bwd.seed
  split <;> exact ⟨rfl, rfl, rfl⟩

/-- An interrupted `backward` does not look at the kernel cache. -/
theorem strip_stopped {A : Scalar V} {w : World V} {y : Nat} {v : World V} (h : Bwd.Stopped A w.strip y v) : ∃ w', Bwd.Stopped A w y w' ∧ v = w'.strip ∧ w'.cache = w.cache := by
  have hs := seed_kept A w y
  cases h with
  | start => exact ⟨w, .start, rfl, rfl⟩
  | @seeding g' h1 h2 =>
    rw [strip_seed] at h2
    exact ⟨{ w with g := g' }, .seeding h1 h2, rfl, rfl⟩
  | seeded => exact ⟨_, .seeded, strip_seed A w y, hs.cache⟩
  | @rule seen funcs pre post gxs t gr w1 g g' h1 h2 h3 h4 h5 h6 h7 =>
    rw [strip_seed] at h1 h3
    rw [foldlM_map (strip_visit A)] at h3
    obtain ⟨w2, e2, rfl⟩ := map_strip_ok h3
    have k := foldlM_kept visit_kept _ e2
    exact ⟨{ w2 with g := g' }, .rule h1 h2 e2 h4 h5 h6 h7, rfl, k.cache.trans hs.cache⟩
  | @adding seen funcs pre post gxs t gr w1 w2 w3 g g' done rest p h1 h2 h3 h4 h5 h6 h7 h8 h9 h10 =>
    rw [strip_seed] at h1 h3
    rw [foldlM_map (strip_visit A)] at h3
    obtain ⟨u1, e1, rfl⟩ := map_strip_ok h3
    have k := foldlM_kept visit_kept _ e1
    have h7' : done.foldlM Bwd.accum ({ u1 with g := g } : World V).strip = .ok w2 := h7
    rw [foldlM_map strip_accum] at h7'
    obtain ⟨u2, e2, rfl⟩ := map_strip_ok h7'
    have k2 := foldlM_kept accum_kept _ e2
    rw [strip_accum] at h8
    obtain ⟨u3, e3, rfl⟩ := map_strip_ok h8
    exact ⟨{ u2 with g := g' }, .adding h1 h2 e1 h4 h5 h6 e2 e3 h9 h10, rfl, (k2.cache.trans k.cache).trans hs.cache⟩

/-- Calls that do not materialize keep the cache. -/
theorem exec1_cache {b : Backend V} {w w' : World V} {c : Call V} {o : Out V} (hm : ∀ a, c ≠ .materialize a) (hr : c ≠ .reset) (h : exec1 b w c = .ok (o, w')) : w'.cache = w.cache := by
  have made : ∀ p, made w p = .ok (o, w') → w'.cache = w.cache := by intro p h; cases h; rfl
  have madeE : ∀ p, madeE w p = .ok (o, w') → w'.cache = w.cache := by
    intro p h
    cases p with
    | error e => cases h
    | ok p => exact made p h
  cases c <;> first | exact madeE _ h | exact made _ h | (cases h; rfl) | skip
  case materialize a => exact absurd rfl (hm a)
  case reset => exact absurd rfl hr
  case tolist a =>
    simp only [exec1] at h
    cases ht : tolist b w a with
    | error e => rw [ht] at h; cases h
    | ok q =>
      rw [ht] at h; cases h
      unfold tolist at ht
      obtain ⟨w1, h1, h2⟩ := except_bind_ok ht
      have : w1.cache = w.cache := by
        unfold ensureCpu at h1
        split at h1
        · cases h1; rfl
        · split at h1
          · split at h1 <;> cases h1; rfl
          · cases h1
      split at h2
      · obtain ⟨l, _, h2⟩ := except_bind_ok h2
        cases h2; exact this
      · cases h2
  case backward a =>
    simp only [exec1] at h
    cases ht : Bwd.backward b.A w a with
    | error e => rw [ht] at h; cases h
    | ok q =>
      rw [ht] at h; cases h
      unfold Bwd.backward at ht
      obtain ⟨q, _, h2⟩ := except_bind_ok ht
      exact (foldlM_kept visit_kept _ h2).cache.trans (seed_kept b.A w a).cache

end Whale
