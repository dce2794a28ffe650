import Verif.Proofs.ParseProg
import Verif.Proofs.TextTree
import Verif.Proofs.MatLemmas
import Verif.Spec.Launch
/-
Generated kernels are in the form whose text parses back.
-/
namespace Whale
open LangSpec Syntax Codegen
variable {V : Type}

/-- Expressions that need no parentheses anywhere. -/
def KI.atom : KI → Prop
  | .bin _ _ _ => False
  | _ => True

def KD.atom (L : Lang) : KD → Prop
  | .bin _ _ _ => False
  | .un _ _ => False
  | .read _ i => i.fits L 0
  | _ => True

theorem KI.atom.fits {L : Lang} {q : Nat} : ∀ {e : KI}, e.atom → e.fits L q
  | .var _, _ => trivial
  | .lit _, _ => trivial

theorem KD.atom.fits {L : Lang} {q : Nat} : ∀ {e : KD}, e.atom L → e.fits L q
  | .var _, _ => trivial
  | .lit _, _ => trivial
  | .zero _, _ => trivial
  | .read _ _, h => h

theorem mul_fits {L : Lang} {a : KI} (h : a.atom) (c : Int) : (KI.bin .Mul a (.lit c)).fits L 12 :=
  ⟨rfl, by cases L <;> decide, h.fits, trivial⟩

theorem sum_fits {L : Lang} : ∀ {ts : List KI} {t : KI}, t.fits L 11 → (∀ x ∈ ts, KI.fits L 12 x) → (sumKI t ts).fits L 11
  | [], t, h, _ => h
  | x :: ts, t, h, hs => by
    show (sumKI (.bin .Add t x) ts).fits L 11
    refine sum_fits ⟨rfl, by cases L <;> decide, ?_, ?_⟩ (fun y hy => hs y (List.mem_cons_of_mem _ hy))
    · exact (by cases L <;> rfl : argLevel L .Add = 11) ▸ h
    · exact (by cases L <;> rfl : argLevel L .Add + 1 = 12) ▸ hs x List.mem_cons_self

theorem fits_mono {L : Lang} {q q' : Nat} (hq : q ≤ q') : ∀ {e : KI}, e.fits L q' → e.fits L q
  | .var _, _ => trivial
  | .lit _, _ => trivial
  | .bin _ _ _, h => ⟨h.1, Nat.le_trans hq h.2.1, h.2.2⟩

theorem flatIdx_fits {L : Lang} {shape : List Int} {names : List KI} (h : ∀ a ∈ names, a.atom) : (flatIdx shape names).fits L 0 := by
  unfold flatIdx
  split
  · trivial
  · split
    · trivial
    · rename_i t ts e
      have hm : ∀ x ∈ t :: ts, KI.fits L 12 x := by
        rw [← e]
        intro x hx
        obtain ⟨a, ha, b, hb, rfl⟩ : ∃ a, a ∈ names ∧ ∃ b, b ∈ stridesFromShape shape ∧ KI.bin .Mul a (.lit b) = x := by
          rw [← List.map_uncurry_zip_eq_zipWith] at hx
          obtain ⟨p, hp, rfl⟩ := List.mem_map.1 hx
          exact ⟨p.1, (List.of_mem_zip hp).1, p.2, (List.of_mem_zip hp).2, rfl⟩
        exact mul_fits (h a ha) b
      exact fits_mono (Nat.zero_le 11) (sum_fits (fits_mono (by omega) (hm t List.mem_cons_self)) (fun x hx => hm x (List.mem_cons_of_mem _ hx)))

theorem bufIdx_fits {L : Lang} {o : Int} {st : List Int} {names : List KI} (h : ∀ a ∈ names, a.atom) : (bufIdx o st names).fits L 0 := by
  unfold bufIdx
  refine fits_mono (Nat.zero_le 11) (sum_fits trivial (fun x hx => ?_))
  obtain ⟨p, hp, rfl⟩ := List.mem_map.1 hx
  exact mul_fits (h p.1 (List.of_mem_zip (List.mem_filter.1 hp).1).1) p.2

theorem genI_fits (L : Lang) : ∀ {e : IExpr} {n n' : Nat} {s : Stmt} {k : KI}, genI e n = .ok (s, k, n') → s.fits L ∧ k.atom
  | .index l, n, n', s, k, h => by cases h; exact ⟨trivial, trivial⟩
  | .const c, n, n', s, k, h => by cases h; exact ⟨trivial, trivial⟩
  | .bin op l r, n, n', s, k, h => by
    rw [genI] at h
    by_cases hop : renderBin op = false
    · rw [if_pos hop] at h; cases h
    · rw [if_neg hop] at h
      obtain ⟨⟨s1, a, n1⟩, h1, h⟩ := except_bind_ok h
      obtain ⟨⟨s2, b, n2⟩, h2, h⟩ := except_bind_ok h
      cases h
      have f1 := genI_fits L h1
      have f2 := genI_fits L h2
      exact ⟨⟨f1.1, f2.1, by simpa using hop, by omega, f1.2.fits, f2.2.fits⟩, trivial⟩

theorem genIs_fits (L : Lang) : ∀ {es : List IExpr} {n n' : Nat} {s : Stmt} {ks : List KI}, genIs es n = .ok (s, ks, n') → s.fits L ∧ ∀ a ∈ ks, a.atom
  | [], n, n', s, ks, h => by cases h; exact ⟨trivial, by simp⟩
  | e :: es, n, n', s, ks, h => by
    rw [genIs] at h
    obtain ⟨⟨s1, a, n1⟩, h1, h⟩ := except_bind_ok h
    obtain ⟨⟨s2, as, n2⟩, h2, h⟩ := except_bind_ok h
    cases h
    have f1 := genI_fits L h1
    have f2 := genIs_fits L h2
    exact ⟨⟨f1.1, f2.1⟩, by simpa using ⟨f1.2, f2.2⟩⟩

theorem redLoops_fits {L : Lang} {b : Stmt} (hb : b.fits L) (hn : b.nonempty = true) : ∀ (ls : List LoopIndex), (redLoops ls b).fits L ∧ (redLoops ls b).nonempty = true
  | [] => ⟨hb, hn⟩
  | l :: ls => by
    have := redLoops_fits hb hn ls
    exact ⟨⟨by cases L <;> rfl, rfl, this⟩, rfl⟩

theorem genD_fits (L : Lang) (g : Graph V) (tbl : Tbl) (args : Args) (dt : DType) : ∀ {e : DExpr} {n n' : Nat} {s : Stmt} {k : KD},
    genD g tbl args dt e n = .ok (s, k, n') → s.fits L ∧ k.atom L
  | .const c, n, n', s, k, h => by cases h; exact ⟨trivial, trivial⟩
  | .un op e, n, n', s, k, h => by
    rw [genD] at h
    by_cases hop : renderUn op = false
    · rw [if_pos hop] at h; cases h
    · rw [if_neg hop] at h
      obtain ⟨⟨s1, a, n1⟩, h1, h⟩ := except_bind_ok h
      cases h
      have f1 := genD_fits L g tbl args dt h1
      exact ⟨⟨f1.1, by simpa using hop, f1.2.fits⟩, trivial⟩
  | .bin op l r, n, n', s, k, h => by
    rw [genD] at h
    by_cases hop : renderBin op = false
    · rw [if_pos hop] at h; cases h
    · rw [if_neg hop] at h
      obtain ⟨⟨s1, a, n1⟩, h1, h⟩ := except_bind_ok h
      obtain ⟨⟨s2, b, n2⟩, h2, h⟩ := except_bind_ok h
      cases h
      have f1 := genD_fits L g tbl args dt h1
      have f2 := genD_fits L g tbl args dt h2
      exact ⟨⟨f1.1, f2.1, by simpa using hop, by omega, f1.2.fits, f2.2.fits⟩, trivial⟩
  | .tern op c t f, n, n', s, k, h => by
    rw [genD] at h
    by_cases hop : op ≠ .Where
    · rw [if_pos hop] at h; cases h
    · rw [if_neg hop] at h
      obtain ⟨⟨s1, c1, n1⟩, h1, h⟩ := except_bind_ok h
      obtain ⟨⟨s2, a, n2⟩, h2, h⟩ := except_bind_ok h
      obtain ⟨⟨s3, b, n3⟩, h3, h⟩ := except_bind_ok h
      cases h
      have f1 := genI_fits L h1
      have f2 := genD_fits L g tbl args dt h2
      have f3 := genD_fits L g tbl args dt h3
      exact ⟨⟨trivial, f1.1, f1.2.fits, ⟨f2.1, f2.2.fits⟩, by simp [Stmt.nonempty], ⟨f3.1, f3.2.fits⟩, by simp [Stmt.nonempty]⟩, trivial⟩
  | .red op e reduced, n, n', s, k, h => by
    rw [genD] at h
    obtain ⟨⟨s1, a, n1⟩, h1, h⟩ := except_bind_ok h
    by_cases hop : op ≠ .Sum
    · simp only [if_pos hop] at h; cases h
    · simp only [if_neg hop] at h
      cases h
      have f1 := genD_fits L g tbl args dt h1
      exact ⟨⟨trivial, (redLoops_fits (L := L) (b := .seq s1 (.set .acc (.bin .Add (.var .acc) a))) ⟨f1.1, rfl, by omega, trivial, f1.2.fits⟩ (by simp [Stmt.nonempty]) _).1⟩, trivial⟩
  | .func f idx, n, n', s, k, h => by
    rw [genD] at h
    obtain ⟨a, h0, h⟩ := except_bind_ok h
    obtain ⟨⟨s1, names, n1⟩, h1, h⟩ := except_bind_ok h
    simp only at h
    split at h
    · cases h
    · cases h
      have f1 := genIs_fits L h1
      exact ⟨f1.1, flatIdx_fits f1.2⟩
  | .buf b idx, n, n', s, k, h => by
    rw [genD] at h
    obtain ⟨a, h0, h⟩ := except_bind_ok h
    obtain ⟨⟨s1, names, n1⟩, h1, h⟩ := except_bind_ok h
    cases h
    have f1 := genIs_fits L h1
    exact ⟨f1.1, bufIdx_fits f1.2⟩

theorem splitInits_fits (L : Lang) : ∀ ss : List SplitLoop, (splitInits ss).fits L
  | [] => trivial
  | sp :: r => ⟨⟨rfl, by omega, ⟨rfl, by cases L <;> decide, trivial, trivial⟩, trivial⟩, splitInits_fits L r⟩

theorem splitGuards_fits (L : Lang) : ∀ ss : List SplitLoop, (splitGuards ss).fits L
  | [] => trivial
  | sp :: r => by
    rw [splitGuards]
    split
    · exact ⟨⟨rfl, by omega, trivial, trivial⟩, splitGuards_fits L r⟩
    · exact splitGuards_fits L r

theorem genLoops_fits {L : Lang} {b : Stmt} (hb : b.fits L) (hn : b.nonempty = true) : ∀ {ls : List LoopSched}, (∀ l ∈ ls, l.kind = .spatial → modeOK L l.exec = true) →
    (genLoops ls b).fits L ∧ (genLoops ls b).nonempty = true
  | [], _ => ⟨hb, hn⟩
  | l :: ls, h => by
    have ih := genLoops_fits hb hn (ls := ls) (fun l' h' => h l' (List.mem_cons_of_mem _ h'))
    rw [genLoops]
    split
    · exact ih
    · rename_i hk
      have hm := h l List.mem_cons_self (by simpa using hk)
      cases he : l.exec <;> rw [he] at hm
      case gpuBlock d =>
        refine ⟨⟨?_, ih.1⟩, by simp [Stmt.nonempty]⟩
        cases L <;> first | rfl | (simp [modeOK] at hm; done)
      case gpuThread d =>
        refine ⟨⟨?_, ih.1⟩, by simp [Stmt.nonempty]⟩
        cases L <;> first | rfl | (simp [modeOK] at hm; done)
      all_goals exact ⟨⟨hm, rfl, ih⟩, rfl⟩

/-- Every kernel the code generator produces for a schedule whose modes the language has. -/
theorem codegen_fits {L : Lang} {g : Graph V} {tbl : Tbl} {f : Func} {sch : Schedule} {args : Args} {n n' : Nat} {K : Kernel}
    (hm : ∀ l ∈ sch.loops, l.kind = .spatial → modeOK L l.exec = true) (h : codegen g tbl f sch args n = .ok (K, n')) :
    K.params ≠ [] ∧ K.body.fits L ∧ K.body.nonempty = true := by
  rw [codegen] at h
  obtain ⟨⟨s, res, n1⟩, h1, h⟩ := except_bind_ok h
  cases h
  have f1 := genD_fits L g tbl args _ h1
  have hi : (flatIdx f.outShape (f.outLoops.map fun l => KI.var l.name)).fits L 0 := by
    apply flatIdx_fits
    intro a ha
    obtain ⟨l, _, rfl⟩ := List.mem_map.1 ha
    trivial
  exact ⟨by simp [params], genLoops_fits (L := L) (b := .seq (splitInits sch.splits) (.seq (splitGuards sch.splits) (.seq s (.store _ res))))
    ⟨splitInits_fits L _, splitGuards_fits L _, f1.1, hi, f1.2.fits⟩ (by simp [Stmt.nonempty]) hm⟩

/-! ### the modes of the automatic schedules -/

theorem setExec_modes {L : Lang} {s s' : Schedule} {lv : LoopVar} {e : LoopExec} (hs : ∀ l ∈ s.loops, modeOK L l.exec = true) (he : modeOK L e = true) (h : Sched.setExec s lv e = .ok s') :
    ∀ l ∈ s'.loops, modeOK L l.exec = true := by
  unfold Sched.setExec at h
  obtain ⟨i, _, h⟩ := except_bind_ok h
  cases h
  intro l hl
  rcases List.mem_or_eq_of_mem_set hl with h | rfl
  · exact hs l h
  · exact he

theorem split_modes {L : Lang} (h0 : modeOK L .sequential = true) {s : Schedule} {lv : LoopVar} {k : Int} {x : (LoopVar × LoopVar) × Schedule} (hs : ∀ l ∈ s.loops, modeOK L l.exec = true)
    (h : Sched.split s lv k = .ok x) : ∀ l ∈ x.2.loops, modeOK L l.exec = true := by
  unfold Sched.split at h
  by_cases hk : k = 0
  · rw [if_pos hk] at h; cases h
  rw [if_neg hk] at h
  obtain ⟨i, _, h⟩ := except_bind_ok h
  cases h
  intro l hl
  simp only [List.mem_append, List.mem_cons, List.not_mem_nil, or_false] at hl
  rcases hl with (hl | rfl | rfl) | hl
  · exact hs l (List.mem_of_mem_take hl)
  · exact h0
  · exact h0
  · exact hs l (List.mem_of_mem_drop hl)

theorem init_modes {L : Lang} (h0 : modeOK L .sequential = true) (F : Func) : ∀ l ∈ (Sched.init F).loops, modeOK L l.exec = true := by
  intro l hl
  simp only [Sched.init, List.mem_append, List.mem_map] at hl
  rcases hl with ⟨_, _, rfl⟩ | ⟨_, _, rfl⟩ <;> exact h0

theorem schedule_modes {L : Lang} {isGpu : Bool} (hL : L = .cuda ↔ isGpu = true) {F : Func} {sch : Schedule} (h : Sched.schedule isGpu F = .ok sch) :
    ∀ l ∈ sch.loops, l.kind = .spatial → modeOK L l.exec = true := by
  have key : ∀ l ∈ sch.loops, modeOK L l.exec = true := by
    have h0 : modeOK L .sequential = true := by cases L <;> rfl
    have hi := init_modes h0 F
    cases isGpu with
    | false =>
      have hL' : L ≠ .cuda := by rw [ne_eq, hL]; simp
      have hp : modeOK L .parallel = true ∧ modeOK L .vectorize = true := by cases L <;> first | exact absurd rfl hL' | exact ⟨rfl, rfl⟩
      rw [Sched.schedule, if_neg (by simp)] at h
      unfold Sched.cpu at h
      have fin : ∀ {s1 : Schedule}, (∀ l ∈ s1.loops, modeOK L l.exec = true) → (if 1 < (Sched.spatials (Sched.init F)).length then
          match (Sched.spatials (Sched.init F)).getLast? with
          | some lv => Sched.setExec s1 lv LoopExec.vectorize
          | none => pure s1
        else pure s1) = .ok sch → ∀ l ∈ sch.loops, modeOK L l.exec = true := by
        intro s1 hs1 h
        split at h
        · split at h
          · exact setExec_modes hs1 hp.2 h
          · cases h; exact hs1
        · cases h; exact hs1
      simp only at h
      split at h
      · obtain ⟨s1, h1, h⟩ := except_bind_ok h
        exact fin (setExec_modes hi hp.1 h1) h
      · exact fin hi h
    | true =>
      obtain rfl : L = .cuda := hL.2 rfl
      rw [Sched.schedule, if_pos rfl] at h
      unfold Sched.gpu at h
      have hB : ∀ d, modeOK .cuda (.gpuBlock d) = true := fun d => rfl
      have hT : ∀ d, modeOK .cuda (.gpuThread d) = true := fun d => rfl
      split at h
      · cases h; exact hi
      · obtain ⟨⟨⟨o, i⟩, s1⟩, h1, h⟩ := except_bind_ok h
        obtain ⟨s2, h2, h⟩ := except_bind_ok h
        exact setExec_modes (setExec_modes (split_modes h0 hi h1) (hB _) h2) (hT _) h
      · obtain ⟨⟨⟨o, i⟩, s1⟩, h1, h⟩ := except_bind_ok h
        obtain ⟨s2, h2, h⟩ := except_bind_ok h
        obtain ⟨s3, h3, h⟩ := except_bind_ok h
        exact setExec_modes (setExec_modes (setExec_modes (split_modes h0 hi h1) (hB _) h2) (hB _) h3) (hT _) h
      · obtain ⟨⟨⟨o, i⟩, s1⟩, h1, h⟩ := except_bind_ok h
        obtain ⟨s2, h2, h⟩ := except_bind_ok h
        obtain ⟨s3, h3, h⟩ := except_bind_ok h
        obtain ⟨s4, h4, h⟩ := except_bind_ok h
        exact setExec_modes (setExec_modes (setExec_modes (setExec_modes (split_modes h0 hi h1) (hB _) h2) (hB _) h3) (hB _) h4) (hT _) h
      · obtain ⟨⟨⟨o, i⟩, s1⟩, h1, h⟩ := except_bind_ok h
        obtain ⟨s2, h2, h⟩ := except_bind_ok h
        exact setExec_modes (setExec_modes (split_modes h0 hi h1) (hB _) h2) (hT _) h
  exact fun l hl _ => key l hl

end Whale
