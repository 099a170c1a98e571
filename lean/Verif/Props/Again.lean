import Verif.Spec.Again
import Verif.Props.Process
/-
  C152: a second interrupt.
-/
namespace Gotit.Props
open Gotit Spec

/-- A signal ends the process at once exactly if it comes before the first `signal.NotifyContext`. -/
theorem C152_iff_partial {S : Setup} {c : Command} {P P' : Proc} (h : Proc.Step S c P .signal P') : Ended P' ↔ P.loc = .early := by
  cases h with
  | kill h => exact ⟨fun _ => h, fun _ => .inr rfl⟩
  | early h => simp [Ended, h]
  | notify h =>
    rcases h with h | h | ⟨d, h⟩ | ⟨d, h⟩ <;> simp [Ended, h]
  | interrupt h => simp [Ended, h]

theorem signal_settled {S : Setup} {c : Command} {P P1 P2 : Proc} (h1 : Proc.Step S c P .signal P1) (h2 : Proc.Step S c P1 .signal P2) :
    SameBut P1 P2 := by
  cases h1 with
  | kill h =>
    cases h2 with
    | kill h => cases h
    | early h => cases h
    | notify h => rcases h with h | h | ⟨d, h⟩ | ⟨d, h⟩ <;> cases h
    | interrupt h => cases h
  | early h =>
    cases h2 with
    | kill h' => simp [h] at h'
    | early _ => exact ⟨rfl, by cases c <;> simp, rfl⟩
    | notify h' => rcases h' with h' | h' | ⟨d, h'⟩ | ⟨d, h'⟩ <;> simp [h] at h'
    | interrupt h' => simp [h] at h'
  | notify h =>
    cases h2 with
    | kill h' => rcases h with h | h | ⟨d, h⟩ | ⟨d, h⟩ <;> simp [h] at h'
    | early h' => rcases h with h | h | ⟨d, h⟩ | ⟨d, h⟩ <;> simp [h] at h'
    | notify _ => exact ⟨rfl, rfl, rfl⟩
    | interrupt h' => rcases h with h | h | ⟨d, h⟩ | ⟨d, h⟩ <;> simp [h] at h'
  | interrupt h hp =>
    cases h2 with
    | kill h' => cases h'
    | early h' => cases h'
    | notify h' => rcases h' with h' | h' | ⟨d, h'⟩ | ⟨d, h'⟩ <;> cases h'
    | interrupt h' hp' =>
      simp only [ProcLoc.running.injEq] at h'
      subst h'
      exact ⟨rfl, rfl, rfl⟩

/-- C152 is false of the code, always: however many signals follow the first one, nothing changes. -/
theorem C152_violated {S : Setup} {c : Command} {P P1 P2 : Proc} (h1 : Proc.Step S c P .signal P1) (h2 : Acts S c (· = .signal) P1 P2) :
    SameBut P1 P2 := by
  induction h2 generalizing P with
  | here => exact ⟨rfl, rfl, rfl⟩
  | @step P1 a Q P2 st hw _ ih =>
    subst hw
    obtain ⟨a1, a2, a3⟩ := signal_settled h1 st
    obtain ⟨b1, b2, b3⟩ := ih st
    exact ⟨a1.trans b1, a2.trans b2, a3.trans b3⟩

/-- And so no setup has the property: every process can be signalled twice before the file is opened. -/
theorem C152_false_violated (S : Setup) (c : Command) (h1 : S.configOk = true) : ¬ SecondInterruptEnds S c := by
  intro h
  have r0 : Proc.Reachable S c (Proc.start (fun _ => [])) := .start _
  have r1 := r0.step (.first rfl)
  have r2 := r1.step (.second rfl h1)
  have s1 : Proc.Step S c _ .signal _ := .notify (P := { Proc.start (fun _ => []) with loc := .ready }) (.inl rfl)
  have s2 : Proc.Step S c _ .signal _ := .notify (P := { Proc.start (fun _ => []) with loc := .ready, cancelled := true, signals := 1 }) (.inl rfl)
  have he := h _ _ _ r2 s1 (by simp [Ended, Proc.start]) s2
  simp [Ended, Proc.start] at he

/-- Non-vacuity of `C152_violated`: a download that waits for a pipe is signalled three times and goes on waiting. -/
example (S : Setup) (disk : Disk) : ∃ P P1 P2, Proc.Step S .download P .signal P1 ∧ Acts S .download (· = .signal) P1 P2 ∧
    P2.loc = .reading [] ∧ P2.signals = 3 := by
  refine ⟨⟨.reading [], false, disk, 0⟩, ⟨.reading [], true, disk, 1⟩, ⟨.reading [], true, disk, 3⟩, .notify (.inr (.inr (.inl ⟨_, rfl⟩))),
    .step (P' := ⟨.reading [], true, disk, 2⟩) (.notify (.inr (.inr (.inl ⟨_, rfl⟩)))) rfl
      (.step (.notify (.inr (.inr (.inl ⟨_, rfl⟩)))) rfl .here), rfl, rfl⟩

end Gotit.Props
