import Verif.Lemmas.Races
/-
  C83: data races.
-/
namespace Gotit.Props
open Gotit.Shared Gotit.Spec

/-- C83 (partial): of all pairs of conflicting accesses to the variables the goroutines share (the pool, the bit sets, the files, the retry
queues and messages, the fields of a peer), in any execution with any trackers and any number of peers, the only ones not ordered by
goroutine starts, mutexes and the channel are Stop's read of `Peer.conn` and the write of it by `connect`. -/
theorem C83_partial {ts : List Nat} (hn : ts.Nodup) {σ : State} (hr : Reachable ts σ) {i j : Nat} {e f : Event} (h : Race Before σ.trace i j e f) :
    ∃ p t, (e = (.main, .rd (.conn p)) ∧ f = (.tracker t, .wr (.conn p))) ∨ (e = (.tracker t, .wr (.conn p)) ∧ f = (.main, .rd (.conn p))) := by
  obtain ⟨h1, h2, h3, h4, h5, x, v, w, h6, h7, h8⟩ := h
  rcases Nat.lt_or_gt_of_ne h5 with hl | hl
  · rcases (dyn_reachable hn hr).ordered i j e f x v w hl h1 h2 h6 h7 h8 with h | h
    · exact absurd h h3
    · exact h
  · rcases (dyn_reachable hn hr).ordered j i f e x w v hl h2 h1 h7 h6 h8.symm with h | ⟨p, t, h⟩
    · exact absurd h h4
    · exact ⟨p, t, h.symm.imp (fun h => h.symm) (fun h => h.symm)⟩

/-- Without Stop closing a connection there is no race. -/
theorem C83_running_partial {ts : List Nat} (hn : ts.Nodup) {σ : State} (hr : Reachable ts σ) (hs : ∀ p, (Gid.main, Act.rd (.conn p)) ∉ σ.trace) :
    ¬ ∃ i j e f, Race Before σ.trace i j e f := by
  rintro ⟨i, j, e, f, h⟩
  obtain ⟨p, t, ⟨rfl, -⟩ | ⟨-, rfl⟩⟩ := C83_partial hn hr h
  · exact hs p (List.mem_of_getElem? h.1)
  · exact hs p (List.mem_of_getElem? h.2.1)

theorem hb_lt {r : Event → Event → Prop} {tr : Trace} {i j : Nat} (h : HB r tr i j) : i < j := by
  induction h with
  | sync h => exact h
  | trans _ _ h1 h2 => omega

theorem hb_adjacent {r : Event → Event → Prop} {tr : Trace} {i j : Nat} (h : HB r tr i j) (hj : j = i + 1) :
    ∃ e f, tr[i]? = some e ∧ tr[j]? = some f ∧ r e f := by
  cases h with
  | sync _ h1 h2 h3 => exact ⟨_, _, h1, h2, h3⟩
  | trans h1 h2 => have := hb_lt h1; have := hb_lt h2; omega

/-- An execution with one tracker: the download is interrupted while the first peer is dialled. -/
def interrupted : Trace :=
  [(.main, .init .requested), (.main, .init .downloaded), (.main, .init .files), (.main, .init .poolField), (.main, .init .poolMap),
   (.main, .wr .cancelCtx), (.main, .go .printer .printing), (.main, .go (.tracker 0) .announce),
   (.tracker 0, .atomic 0), (.tracker 0, .atomic 3), (.tracker 0, .atomic 1), (.tracker 0, .init (.failed 0)),
   (.tracker 0, .wr (.own 1)), (.tracker 0, .wr (.conn 1)), (.tracker 0, .lock .pool), (.tracker 0, .rd .poolField), (.tracker 0, .rd .poolMap),
   (.tracker 0, .rd .poolField), (.tracker 0, .insert 1), (.tracker 0, .atomic 2), (.tracker 0, .unlock .pool),
   (.main, .go .writer (.writing none)), (.main, .wait), (.main, .observe), (.main, .rd .poolField), (.main, .rd .cancelCtx), (.main, .cancel),
   (.main, .lock .pool), (.main, .rd .poolField), (.main, .rd .poolMap), (.main, .rd (.conn 1)), (.tracker 0, .wr (.conn 1))]

theorem interrupted_reachable : ∃ σ, Reachable [0] σ ∧ σ.trace = interrupted := by
  have r0 : Reachable [0] _ := .start
  have r1 := Reachable.step r0 (.act (g := .main) rfl .init)
  have r2 := Reachable.step r1 (.act (g := .main) rfl .init)
  have r3 := Reachable.step r2 (.act (g := .main) rfl .init)
  have r4 := Reachable.step r3 (.act (g := .main) rfl .init)
  have r5 := Reachable.step r4 (.act (g := .main) rfl .init)
  have r6 := Reachable.step r5 (.act (g := .main) rfl .wr)
  have r7 := Reachable.step r6 (.act (g := .main) rfl .go)
  have r8 := Reachable.step r7 (.act (g := .main) rfl .go)
  have r9 := Reachable.step r8 (.next (g := .tracker 0) rfl .announced)
  have r10 := Reachable.step r9 (.act (g := .tracker 0) rfl .atomic)
  have r11 := Reachable.step r10 (.act (g := .tracker 0) rfl .atomic)
  have r12 := Reachable.step r11 (.act (g := .tracker 0) rfl .atomic)
  have r13 := Reachable.step r12 (.act (g := .tracker 0) rfl .init)
  have r14 := Reachable.step r13 (.next (g := .tracker 0) rfl .newPeer)
  have r15 := Reachable.step r14 (.act (g := .tracker 0) rfl .wr)
  have r16 := Reachable.step r15 (.act (g := .tracker 0) rfl .wr)
  have r17 := Reachable.step r16 (.act (g := .tracker 0) rfl (.lock (fun h e => nomatch e)))
  have r18 := Reachable.step r17 (.act (g := .tracker 0) rfl .rd)
  have r19 := Reachable.step r18 (.act (g := .tracker 0) rfl .rd)
  have r20 := Reachable.step r19 (.next (g := .tracker 0) rfl .added)
  have r21 := Reachable.step r20 (.act (g := .tracker 0) rfl .rd)
  have r22 := Reachable.step r21 (.act (g := .tracker 0) rfl .insert)
  have r23 := Reachable.step r22 (.act (g := .tracker 0) rfl .atomic)
  have r24 := Reachable.step r23 (.act (g := .tracker 0) rfl .unlock)
  have r25 := Reachable.step r24 (.next (g := .tracker 0) rfl .noDial)
  have r26 := Reachable.step r25 (.act (g := .main) rfl .go)
  have r27 := Reachable.step r26 (.act (g := .main) rfl .wait)
  have r28 := Reachable.step r27 (.act (g := .main) rfl .observe)
  have r29 := Reachable.step r28 (.act (g := .main) rfl .rd)
  have r30 := Reachable.step r29 (.act (g := .main) rfl .rd)
  have r31 := Reachable.step r30 (.act (g := .main) rfl .cancel)
  have free : ∀ h, put (put (fun _ => none) (Gid.tracker 0) (some Mtx.pool)) (Gid.tracker 0) none h ≠ some Mtx.pool := by
    intro h
    simp only [put]
    split <;> simp
  have r32 := Reachable.step r31 (.act (g := .main) rfl (.lock free))
  have r33 := Reachable.step r32 (.act (g := .main) rfl .rd)
  have r34 := Reachable.step r33 (.act (g := .main) rfl .rd)
  have r35 := Reachable.step r34 (.close rfl rfl)
  have r36 := Reachable.step r35 (.act (g := .main) rfl .rd)
  have r37 := Reachable.step r36 (.act (g := .tracker 0) rfl .wr)
  exact ⟨_, r37, rfl⟩

/-- C83 (violated): Stop reads `Peer.conn` of a peer being dialled, unordered with the write by `connect` even if every rule of the memory
model is taken into account. -/
theorem C83_violated : ∃ σ i j, Reachable [0] σ ∧ Race BeforeAll σ.trace i j (.main, .rd (.conn 1)) (.tracker 0, .wr (.conn 1)) := by
  obtain ⟨σ, h1, h2⟩ := interrupted_reachable
  refine ⟨σ, 30, 31, h1, ?_⟩
  rw [h2]
  refine ⟨rfl, rfl, ?_, ?_, by decide, .conn 1, false, true, rfl, rfl, .inr rfl⟩
  · intro h
    obtain ⟨e, f, h3, h4, h5⟩ := hb_adjacent h rfl
    cases h3
    cases h4
    cases h5 with
    | of h => cases h
  · intro h
    have := hb_lt h
    omega

/-- The hypotheses of C83_partial hold in that execution, and the first write of the pool and the read of it by the tracker, in different
goroutines, are ordered. -/
example : ∃ σ, Reachable [0] σ ∧ ([0] : List Nat).Nodup ∧ σ.trace[3]? = some (.main, .init .poolField) ∧
    σ.trace[15]? = some (.tracker 0, .rd .poolField) ∧ HB Before σ.trace 3 15 := by
  obtain ⟨σ, h1, h2⟩ := interrupted_reachable
  refine ⟨σ, h1, by decide, by rw [h2]; rfl, by rw [h2]; rfl, ?_⟩
  rw [h2]
  exact .trans (.sync (j := 7) (by decide) rfl rfl .sameGoroutine) (.sync (by decide) rfl rfl .goStatement)

end Gotit.Props
