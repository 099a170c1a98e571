import Verif.Model.Retry
import Verif.Spec.Retry
/-
  C66: announce retries. C69: the pauses between them.
-/
namespace Gotit.Props
open Gotit Spec

/-- What the caller of `retry.Do` sees. -/
def told {α : Type} : RetryOut α → Told α
  | .ok v => .success v
  | .err e => .failure e
  | .canceled => .canceled
  | .panic e => .crash e

theorem retryLoop_run {S α : Type} (f : Nat → S → S × Res α) (stop : Nat → Bool) (dflt : α) (before : Prop) (hb : ¬ before)
    (left : Nat) : ∀ (n : Nat) (s : S) (es : List String), 0 < left → n = es.length → (∀ k, k < n → ¬ stop k = true) →
    RetryRun (n + left) before (fun k => stop k = true) (es.map .err ++ (retryLoop f stop dflt left n s).2.1)
      (told (retryLoop f stop dflt left n s).2.2) := by
  induction left with
  | zero => intro n s es h; exact absurd h (by decide)
  | succ left ih =>
    intro n s es _ hn hs
    rw [retryLoop.eq_def]
    simp only
    subst hn
    rcases hf : f es.length s with ⟨s', v | e | e⟩
    · exact .success es v hb (by omega) hs
    · simp only
      by_cases hl : left = 0
      · subst hl
        rw [if_pos rfl]
        exact .failure es e hb rfl hs
      · rw [if_neg hl]
        by_cases hst : stop es.length = true
        · rw [if_pos hst]
          exact .canceled es e hb (by omega) hs hst
        · rw [if_neg hst]
          have := ih (es.length + 1) s' (es ++ [e]) (by omega) (by simp) (by
            intro k hk
            by_cases hk' : k < es.length
            · exact hs k hk'
            · rwa [show k = es.length by omega])
          rw [show es.length + 1 + left = es.length + (left + 1) by omega] at this
          simpa using this
    · exact .crash es e hb (by omega) hs

/-- `retry.Do` with a positive number of attempts behaves as specified, for every outcome of every attempt and every
cancellation point. -/
theorem retryDo_run {S α : Type} (limit : Nat) (hl : 0 < limit) (f : Nat → S → S × Res α) (before : Bool) (stop : Nat → Bool)
    (dflt : α) (s : S) : RetryRun limit (before = true) (fun k => stop k = true) (retryDo limit f before stop dflt s).2.1
      (told (retryDo limit f before stop dflt s).2.2) := by
  unfold retryDo
  cases before with
  | true => exact .notTried rfl
  | false =>
    have := retryLoop_run f stop dflt (false = true) (by decide) limit 0 s [] hl rfl (by intro k hk; omega)
    simpa using this

/-- C66: an announce to a tracker makes at most five attempts, stops at the first that does not fail and returns its peers;
after five failures it returns the last error; if the context ends one of the waits, its error. -/
theorem C66_tracker {T : Type} (announce : Nat → T → T × Res (List AddrPort)) (before : Bool) (stop : Nat → Bool) (t : T) :
    RetryRun 5 (before = true) (fun k => stop k = true) (announceToTracker announce before stop t).2.1
      (told (announceToTracker announce before stop t).2.2) :=
  retryDo_run 5 (by decide) announce before stop [] t

/-- C66: the same for the handshake with a peer. -/
theorem C66_peer {P : Type} (announce : Nat → P → P × Res Unit) (before : Bool) (stop : Nat → Bool) (p : P) :
    RetryRun 5 (before = true) (fun k => stop k = true) (announceToPeer announce before stop p).2.1
      (told (announceToPeer announce before stop p).2.2) :=
  retryDo_run 5 (by decide) announce before stop () p

/-- The outcomes reported are those of the attempts, made one after the other on the state the previous one left. -/
def Attempts {S α : Type} (f : Nat → S → S × Res α) : Nat → S → List (Res α) → S → Prop
  | _, s, [], s' => s' = s
  | n, s, o :: os, s' => (f n s).2 = o ∧ Attempts f (n + 1) (f n s).1 os s'

theorem retryLoop_attempts {S α : Type} (f : Nat → S → S × Res α) (stop : Nat → Bool) (dflt : α) (left : Nat) :
    ∀ (n : Nat) (s : S), Attempts f n s (retryLoop f stop dflt left n s).2.1 (retryLoop f stop dflt left n s).1 := by
  induction left with
  | zero => intro n s; rfl
  | succ left ih =>
    intro n s
    rw [retryLoop.eq_def]
    simp only
    rcases hf : f n s with ⟨s', v | e | e⟩
    · simp [Attempts, hf]
    · simp only
      by_cases hl : left = 0
      · rw [if_pos hl]; simp [Attempts, hf]
      · rw [if_neg hl]
        by_cases hst : stop n = true
        · rw [if_pos hst]; simp [Attempts, hf]
        · rw [if_neg hst]
          exact ⟨by rw [hf], by rw [hf]; exact ih (n + 1) s'⟩
    · simp [Attempts, hf]

/-- C66: the attempts of an announce are calls of `Announce` on the same tracker object, one after the other, starting with
the object given. -/
theorem C66_attempts {T : Type} (announce : Nat → T → T × Res (List AddrPort)) (before : Bool) (stop : Nat → Bool) (t : T) :
    Attempts announce 0 t (announceToTracker announce before stop t).2.1 (announceToTracker announce before stop t).1 := by
  unfold announceToTracker retryDo
  cases before with
  | true => rfl
  | false => exact retryLoop_attempts announce stop [] 5 0 t

/-- C66: at most five attempts. -/
theorem C66_limit {T : Type} (announce : Nat → T → T × Res (List AddrPort)) (before : Bool) (stop : Nat → Bool) (t : T) :
    (announceToTracker announce before stop t).2.1.length ≤ 5 := by
  have h := C66_tracker announce before stop t
  generalize (announceToTracker announce before stop t).2.1 = outs at h ⊢
  generalize told (announceToTracker announce before stop t).2.2 = r at h
  cases h <;> simp <;> omega

/-- The attempts used for the HTTP tracker's state (`Model/HttpTracker.lean`, used in C22 and C23) are those of an announce that
is not cancelled. -/
theorem announceTries_retry (parseAddr : Bytes → Option Addr) (t : HttpTracker) (replies : List HttpReply)
    (hn : replies ≠ []) :
    let f := fun n (t : HttpTracker) => match replies[n]? with
      | some r => httpAnnounce parseAddr t r
      | none => (t, .err "no attempt")
    (retryDo replies.length f false (fun _ => false) [] t).1 = (announceTries parseAddr t replies).1 ∧
    told (retryDo replies.length f false (fun _ => false) [] t).2.2 = (match (announceTries parseAddr t replies).2 with
      | .ok v => .success v | .err e => .failure e | .panic e => .crash e) := by
  intro f
  have go : ∀ (rs : List HttpReply) (n : Nat) (t : HttpTracker), rs ≠ [] → replies.drop n = rs →
      (retryLoop f (fun _ => false) [] rs.length n t).1 = (announceTries parseAddr t rs).1 ∧
      told (retryLoop f (fun _ => false) [] rs.length n t).2.2 = (match (announceTries parseAddr t rs).2 with
        | .ok v => .success v | .err e => .failure e | .panic e => .crash e) := by
    intro rs
    induction rs with
    | nil => intro n t h; exact absurd rfl h
    | cons r rs ih =>
      intro n t _ hd
      have hr : replies[n]? = some r := by
        have : (replies.drop n)[0]? = some r := by rw [hd]; rfl
        simpa using this
      have hf : f n t = httpAnnounce parseAddr t r := by simp only [f, hr]
      rw [retryLoop.eq_def, announceTries.eq_def]
      simp only [List.length_cons, hf]
      rcases ha : httpAnnounce parseAddr t r with ⟨t', v | e | e⟩
      · exact ⟨rfl, rfl⟩
      · simp only
        by_cases hz : rs = []
        · subst hz; exact ⟨rfl, rfl⟩
        · have hl : ¬ rs.length = 0 := by simpa using hz
          rw [if_neg hl, if_neg hz]
          have := ih (n + 1) t' hz (by rw [← List.drop_drop, hd]; rfl)
          exact this
      · exact ⟨rfl, rfl⟩
  exact go replies 0 t hn rfl

/-- C66: as many requests reach an HTTP tracker as there are attempts (the model of the requests, `announceUrls`, makes the attempts
`retry.Do` makes). -/
theorem C66_requests (parseAddr : Bytes → Option Addr) (clientId hash : Bytes) (t : HttpTracker) (rs : List (AnnounceData × HttpReply))
    (hn : rs ≠ []) :
    (announceUrls parseAddr clientId hash t rs).length = (retryDo rs.length (fun (n : Nat) (t : HttpTracker) => match rs[n]? with
      | some r => httpAnnounce parseAddr t r.2
      | none => (t, .err "no attempt")) false (fun _ => false) [] t).2.1.length := by
  generalize hfe : (fun (n : Nat) (t : HttpTracker) => match rs[n]? with
      | some r => httpAnnounce parseAddr t r.2
      | none => (t, .err "no attempt")) = f
  have go : ∀ (l : List (AnnounceData × HttpReply)) (n : Nat) (t : HttpTracker), l ≠ [] → rs.drop n = l →
      (announceUrls parseAddr clientId hash t l).length = (retryLoop f (fun _ => false) [] l.length n t).2.1.length := by
    intro l
    induction l with
    | nil => intro n t h; exact absurd rfl h
    | cons r l ih =>
      intro n t _ hd
      have hr : rs[n]? = some r := by
        have : (rs.drop n)[0]? = some r := by rw [hd]; rfl
        simpa using this
      have hf : f n t = httpAnnounce parseAddr t r.2 := by rw [← hfe]; simp only [hr]
      rw [retryLoop.eq_def, announceUrls.eq_def]
      simp only [List.length_cons, hf]
      rcases ha : httpAnnounce parseAddr t r.2 with ⟨t', v | e | e⟩
      · rfl
      · simp only
        by_cases hz : l = []
        · subst hz; rfl
        · have hl : ¬ l.length = 0 := by simpa using hz
          rw [if_neg hl]
          simp only [Bool.false_eq_true, if_false, List.length_cons]
          rw [ih (n + 1) t' hz (by rw [← List.drop_drop, hd]; rfl)]
      · rfl
  exact go rs 0 t hn rfl

/-- Fails twice, then succeeds: three attempts, and the peers of the third. -/
example : (announceToTracker (T := Unit) (fun n s => (s, if n < 2 then .err "no route" else .ok [])) false (fun _ => false) ()).2
    = ([.err "no route", .err "no route", .ok []], .ok []) := by
  simp [announceToTracker, retryDo, retryLoop]

/-- Always fails: five attempts, the last error. -/
example : (announceToTracker (T := Nat) (fun n s => (s + 1, .err (toString n))) false (fun _ => false) 0).2.2 = .err "4" := by
  simp [announceToTracker, retryDo, retryLoop]; decide

/-- Cancelled in the second wait. -/
example : (announceToTracker (T := Unit) (fun _ s => (s, .err "x")) false (fun n => n == 1) ()).2 = ([.err "x", .err "x"], .canceled) := by
  simp [announceToTracker, retryDo, retryLoop]

/-- C69: between the end of one tracker attempt and the start of the next there are exactly 1, 2, 4 and 8 seconds, plus what the timer is late;
so they are at least that far apart however long each takes. -/
theorem C69_tracker (took slack : Nat → Nat) (t0 n : Nat) :
    retryStart trackerRetryDelay took slack t0 (n + 1) =
      retryStart trackerRetryDelay took slack t0 n + took n + 2 ^ n * 1000000000 + slack n := by
  simp only [retryStart, backOffDelay, trackerRetryDelay, Nat.shiftLeft_eq]
  rw [Nat.mul_comm]

/-- C69 for peers, what is claimed: at least half a second between two attempts. -/
def PeersSpaced : Prop := ∀ (took slack : Nat → Nat) (t0 n : Nat),
  retryStart peerRetryDelay took slack t0 n + took n + 500000000 ≤ retryStart peerRetryDelay took slack t0 (n + 1)

/-- C69 fails for peers: `retry.Delay(500)` is 500 nanoseconds; all five attempts on a peer that refuses at once are over
after 7.5 microseconds. -/
theorem C69_peer_violated : ¬ PeersSpaced ∧ retryStart peerRetryDelay (fun _ => 0) (fun _ => 0) 0 4 = 7500 := by
  refine ⟨fun h => ?_, by decide⟩
  have := h (fun _ => 0) (fun _ => 0) 0 0
  exact absurd this (by decide)

/-- C69 for peers, what holds: 500 nanoseconds, doubled every time. -/
theorem C69_peer_partial (took slack : Nat → Nat) (t0 n : Nat) :
    retryStart peerRetryDelay took slack t0 (n + 1) = retryStart peerRetryDelay took slack t0 n + took n + 500 * 2 ^ n + slack n := by
  simp only [retryStart, backOffDelay, peerRetryDelay, Nat.shiftLeft_eq]

end Gotit.Props
