import Verif.Sched.NoPanic
/-!
# Scripted programs, for the worked examples
-/

namespace Verif.Sched

/-- Body of a scripted task: which script, and how far. -/
abbrev Pc := Nat × Nat

/-- A task that plays back a script and then exits. -/
def play (scripts : List (List (Step Pc))) (b : Pc) (_ : Ctx) : Step Pc × Pc :=
  (((scripts[b.1]?.getD [])[b.2]?).getD (.exit .nothing), (b.1, b.2 + 1))

/-- `StepOk`, computed. -/
def stepOkB (s : State Pc) (t : Nat) : Step Pc → Bool
  | .send c _ => (s.chans c).isSome
  | .trySend c _ => (s.chans c).isSome
  | .recv c => (s.chans c).isSome
  | .tryRecv c => (s.chans c).isSome
  | .close c => (s.chans c).isSome
  | .sleep d => decide (s.clock + d < 2 ^ 64)
  | .abort u => decide (u ≠ t)
  | .select arms => arms.all fun a => match a with
    | .recv c => (s.chans c).isSome && decide (arms.count (.recv c) ≤ 1)
    | .timeout d => decide (s.clock + d < 2 ^ 64)
  | _ => true

theorem stepOkB_ok {s : State Pc} {t : Nat} {st : Step Pc} (h : stepOkB s t st = true) : StepOk s t st := by
  cases st with
  | sleep d => exact of_decide_eq_true (p := s.clock + d < 2 ^ 64) h
  | abort u => exact of_decide_eq_true (p := u ≠ t) h
  | select arms =>
    simp only [stepOkB, List.all_eq_true] at h
    refine ⟨?_, ?_, ?_⟩
    · intro c hc
      have := h _ hc
      simp only [Bool.and_eq_true] at this
      exact this.1
    · intro d hd
      simpa using h _ hd
    · intro c
      by_cases hc : .recv c ∈ arms
      · have := h _ hc
        simp only [Bool.and_eq_true, decide_eq_true_eq] at this
        exact this.2
      · rw [List.count_eq_zero_of_not_mem hc]; exact Nat.zero_le _
  | _ => first | exact h | trivial

/-- `n` scheduler steps. -/
def stepsOf (poll : Pc → Ctx → Step Pc × Pc) : Nat → State Pc → State Pc
  | 0, s => s
  | n + 1, s => stepsOf poll n (s.pollOnce poll fun b => b.1).2

/-- All of `n` steps are fine. -/
def fineFor (poll : Pc → Ctx → Step Pc × Pc) : Nat → State Pc → Bool
  | 0, _ => true
  | n + 1, s =>
    (match nextStep poll s with
      | none => true
      | some (t, st) => stepOkB s t st) &&
    !(s.pollOnce poll fun b => b.1).2.crashed &&
    fineFor poll n (s.pollOnce poll fun b => b.1).2

theorem reach_steps {poll : Pc → Ctx → Step Pc × Pc} (n : Nat) : ∀ {s : State Pc}, Reach poll (fun b => b.1) s →
    fineFor poll n s = true → Reach poll (fun b => b.1) (stepsOf poll n s) := by
  induction n with
  | zero => intro s h _; exact h
  | succ n ih =>
    intro s h hf
    simp only [fineFor, Bool.and_eq_true, Bool.not_eq_true'] at hf
    obtain ⟨⟨h1, h2⟩, h3⟩ := hf
    refine ih (.step h ?_ h2) h3
    intro t st hn
    rw [hn] at h1
    exact stepOkB_ok h1

/-- Tasks 0, 1, … run scripts 0, 1, …; task 0 is the main one. -/
def startTasks : Nat → Nat → State Pc → State Pc
  | 0, _, s => s
  | n + 1, i, s => startTasks n (i + 1) (s.addTask (i, 0) i (decide (i = 0)))

/-- Channels with the given capacities, then tasks. -/
def start (cfg : Config) (seed : Nat) (caps : List (Option Nat)) (n : Nat) : State Pc :=
  startTasks n 0 (caps.foldl State.addChan (State.init cfg (.record seed seed [])))

theorem reach_start (poll : Pc → Ctx → Step Pc × Pc) (cfg : Config) (seed : Nat) (caps : List (Option Nat)) (n : Nat) :
    Reach poll (fun b => b.1) (start cfg seed caps n) := by
  have h1 : ∀ (caps : List (Option Nat)) (s : State Pc), Reach poll (fun b => b.1) s →
      Reach poll (fun b => b.1) (caps.foldl State.addChan s) := by
    intro caps
    induction caps with
    | nil => intro s h; exact h
    | cons c cs ih => intro s h; exact ih _ (.chan c h)
  have h2 : ∀ (n i : Nat) (s : State Pc), Reach poll (fun b => b.1) s →
      Reach poll (fun b => b.1) (startTasks n i s) := by
    intro n
    induction n with
    | zero => intro i s h; exact h
    | succ n ih => intro i s h; exact ih _ _ (.task (i, 0) _ h)
  exact h2 _ _ _ (h1 _ _ (.init cfg _))

end Verif.Sched
