import Verif.Spec.PeerAnnounce
import Verif.Props.Connection
import Verif.Props.Handshake
import Verif.Props.Retry
/-
  C85: `Run` is started exactly for the peers that prove to have the torrent. C86: connections left open.
-/
namespace Gotit.Props
open Gotit Spec

theorem torrentGreeting_eq : torrentGreeting = protocolHeader := by decide

theorem torrentGreeting_length : torrentGreeting.length = 20 := by decide

theorem readFull_ok_deliver : ∀ (evs : List Ev) (n : Nat) (b : Bytes) (evs' : List Ev), readFull .stream n evs = (.ok b, evs') →
    ∃ segs rest more, evs = deliver segs ++ rest ∧ segs.flatten = b ++ more ∧ b.length = n := by
  intro evs
  induction evs with
  | nil =>
    intro n b evs' h
    cases n with
    | zero => simp [readFull] at h; exact ⟨[], [], [], by simp [deliver], by simp [h.1], by simp [h.1]⟩
    | succ n => simp [readFull] at h
  | cons e evs ih =>
    intro n b evs' h
    cases n with
    | zero => simp [readFull] at h; exact ⟨[], e :: evs, [], by simp [deliver], by simp [h.1], by simp [h.1]⟩
    | succ n =>
      cases e with
      | data d =>
        simp only [readFull] at h
        split at h
        · rename_i hd
          simp only [Prod.mk.injEq, Res.ok.injEq] at h
          obtain ⟨rfl, _⟩ := h
          exact ⟨[d], evs, d.drop (n + 1), by simp [deliver], by simp, by simp; omega⟩
        · rename_i hd
          split at h
          · rename_i r evs1 hr
            simp only [Prod.mk.injEq, Res.ok.injEq] at h
            obtain ⟨rfl, _⟩ := h
            obtain ⟨segs, rest, more, h1, h2, h3⟩ := ih _ _ _ hr
            exact ⟨d :: segs, rest, more, by simp [h1, deliver], by simp [h2], by simp; omega⟩
          · rename_i x hx
            exact absurd h (by intro h; exact hx _ _ h)
      | timeout => simp [readFull] at h
      | fail e => simp [readFull] at h
      | eof => simp [readFull] at h

theorem readFull_no_panic (k : Kind) : ∀ (evs : List Ev) (n : Nat) (e : String) (evs' : List Ev),
    readFull k n evs ≠ (.panic e, evs') := by
  intro evs
  induction evs with
  | nil => intro n e evs' h; cases n <;> simp [readFull] at h
  | cons x evs ih =>
    intro n e evs' h
    cases n with
    | zero => simp [readFull] at h
    | succ n =>
      cases x with
      | data d =>
        simp only [readFull] at h
        split at h
        · simp at h
        · split at h
          · simp at h
          · exact ih _ _ _ h
      | timeout => simp [readFull] at h
      | fail e => simp [readFull] at h
      | eof => simp [readFull] at h

/-- The 68 bytes of somebody's handshake are accepted. -/
theorem valid_of_intro {hash reserved id : Bytes} (hh : hash.length = 20) (hr : reserved.length = 8) (hi : id.length = 20) :
    isHandshakeValid (torrentGreeting ++ reserved ++ hash ++ id) hash = true := by
  rw [C34_accept_iff _ _ hh]
  exact ⟨reserved, id, by rw [torrentGreeting_eq]; simp, hr, by omega⟩

theorem read_intro {hash : Bytes} {evs : List Ev} {more : Bytes} {rest : List Ev} (hh : hash.length = 20)
    (h : Introduces hash evs more rest) :
    ∃ b segs', readPeerHandshake evs = (.ok b, deliver segs' ++ rest) ∧ segs'.flatten = more ∧ isHandshakeValid b hash = true := by
  obtain ⟨segs, reserved, id, rfl, hr, hi, hs⟩ := h
  have hl : (torrentGreeting ++ reserved ++ hash ++ id).length = 68 := by
    simp [torrentGreeting_length, hh, hr, hi]
  obtain ⟨segs', h1, h2⟩ := readFull_deliver segs 68 rest (by rw [hs, List.length_append, hl]; omega)
  rw [hs, take_prefix hl] at h1
  rw [hs, drop_prefix hl] at h2
  exact ⟨_, segs', h1, h2, valid_of_intro hh hr hi⟩

theorem intro_of_read {hash b : Bytes} {evs evs' : List Ev} (hh : hash.length = 20)
    (h : readPeerHandshake evs = (.ok b, evs')) (hv : isHandshakeValid b hash = true) : ∃ more rest, Introduces hash evs more rest := by
  obtain ⟨segs, rest, more, h1, h2, h3⟩ := readFull_ok_deliver _ _ _ _ h
  obtain ⟨reserved, id, rfl, hr, hi⟩ := (C34_accept_iff _ _ hh).1 hv
  refine ⟨more, rest, segs, reserved, id, h1, hr, ?_, ?_⟩
  · simp [protocolHeader, hh, hr] at h3; omega
  · rw [h2, torrentGreeting_eq]; simp

/-- One attempt: it succeeds exactly if the peer was reached, and then `p.conn` goes on directly after the peer's handshake. -/
theorem announce_ok_iff (hash cid : Bytes) (hh : hash.length = 20) (a : Attempt) (l : Link) :
    (peerAnnounce hash cid a l).2 = .ok () ↔ Reached hash a := by
  unfold peerAnnounce Reached
  cases hd : a.dial with
  | some e => simp
  | none =>
    cases hw : a.write with
    | some e => simp
    | none =>
      simp only [true_and]
      rcases hr : readPeerHandshake a.evs with ⟨b | e | e, evs'⟩
      · simp only
        by_cases hv : isHandshakeValid b hash = true
        · rw [if_pos hv]
          simp only [true_iff]
          exact intro_of_read hh hr hv
        · rw [if_neg hv]
          constructor
          · intro h; cases h
          · rintro ⟨more, rest, h⟩
            obtain ⟨b', segs', h1, _, h3⟩ := read_intro hh h
            rw [hr] at h1
            simp only [Prod.mk.injEq, Res.ok.injEq] at h1
            exact absurd (h1.1 ▸ h3) hv
      · simp only
        constructor
        · intro h; cases h
        · rintro ⟨more, rest, h⟩
          obtain ⟨b', segs', h1, _⟩ := read_intro hh h
          rw [hr] at h1; simp at h1
      · simp only
        constructor
        · intro h; cases h
        · rintro ⟨more, rest, h⟩
          obtain ⟨b', segs', h1, _⟩ := read_intro hh h
          rw [hr] at h1; simp at h1

theorem announce_no_panic (hash cid : Bytes) (a : Attempt) (l : Link) (e : String) : (peerAnnounce hash cid a l).2 ≠ .panic e := by
  unfold peerAnnounce
  cases a.dial with
  | some e => simp
  | none =>
    cases a.write with
    | some e => simp
    | none =>
      rcases hr : readPeerHandshake a.evs with ⟨b | e | e, evs'⟩
      · simp only; split <;> simp
      · simp
      · exact absurd hr (readFull_no_panic _ _ _ _ _)

/-- What an attempt does to the connections. -/
theorem announce_link (hash cid : Bytes) (a : Attempt) (l : Link) :
    (peerAnnounce hash cid a l).1.opened = l.opened + (if a.dial = none then 1 else 0) ∧
    (peerAnnounce hash cid a l).1.closed = l.closed ∧
    ((peerAnnounce hash cid a l).1.conn.map Prod.fst = if a.dial = none then some l.opened else none) ∧
    (peerAnnounce hash cid a l).1.sent = l.sent ++ (if a.dial = none then [(l.opened, createHandshake hash cid)] else []) := by
  unfold peerAnnounce
  cases a.dial with
  | some e => simp
  | none =>
    cases a.write with
    | some e => simp
    | none =>
      rcases hr : readPeerHandshake a.evs with ⟨b | e | e, evs'⟩
      · simp only; split <;> simp
      · simp
      · simp

/-- The connection after a successful attempt. -/
theorem announce_conn (hash cid : Bytes) (hh : hash.length = 20) (a : Attempt) (l : Link) (hd : a.dial = none) (hw : a.write = none)
    {more : Bytes} {rest : List Ev} (h : Introduces hash a.evs more rest) :
    ∃ segs', (peerAnnounce hash cid a l).1.conn = some (l.opened, deliver segs' ++ rest) ∧ segs'.flatten = more := by
  obtain ⟨b, segs', h1, h2, h3⟩ := read_intro hh h
  refine ⟨segs', ?_, h2⟩
  unfold peerAnnounce
  simp only [hd, hw, h1, h3, if_true]

/-! ### The retries -/

/-- The connections after `n` attempts. -/
def linkAfter (hash cid : Bytes) (tries : Nat → Attempt) (l : Link) : Nat → Link
  | 0 => l
  | n + 1 => (peerAnnounce hash cid (tries n) (linkAfter hash cid tries l n)).1

theorem linkAfter_opened (hash cid : Bytes) (tries : Nat → Attempt) (l : Link) (n : Nat) :
    (linkAfter hash cid tries l n).opened = l.opened + established tries n := by
  induction n with
  | zero => rfl
  | succ n ih => simp only [linkAfter, established, (announce_link hash cid (tries n) _).1, ih]; omega

theorem linkAfter_closed (hash cid : Bytes) (tries : Nat → Attempt) (l : Link) (n : Nat) :
    (linkAfter hash cid tries l n).closed = l.closed := by
  induction n with
  | zero => rfl
  | succ n ih => simp only [linkAfter, (announce_link hash cid (tries n) _).2.1, ih]

/-- The loop from attempt `n` on, all attempts before having failed. -/
theorem loop_shape (hash cid : Bytes) (hh : hash.length = 20) (tries : Nat → Attempt) (stop : Nat → Bool) (l : Link) :
    ∀ (left n : Nat), 0 < left → (∀ k, k < n → ¬ Reached hash (tries k)) → (∀ k, k < n → stop k = false) →
    ∃ m, n ≤ m ∧ m < n + left ∧ (∀ k, k < m → ¬ Reached hash (tries k)) ∧ (∀ k, k < m → stop k = false) ∧
      (retryLoop (fun n l => peerAnnounce hash cid (tries n) l) stop () left n (linkAfter hash cid tries l n)).1 =
        linkAfter hash cid tries l (m + 1) ∧
      ((retryLoop (fun n l => peerAnnounce hash cid (tries n) l) stop () left n (linkAfter hash cid tries l n)).2.2 = .ok () ∧
          Reached hash (tries m) ∨
        (retryLoop (fun n l => peerAnnounce hash cid (tries n) l) stop () left n (linkAfter hash cid tries l n)).2.2 ≠ .ok () ∧
          ¬ Reached hash (tries m) ∧ (m + 1 = n + left ∨ stop m = true)) := by
  intro left
  induction left with
  | zero => intro n h; omega
  | succ left ih =>
    intro n _ hbad hstop
    rw [retryLoop.eq_def]
    simp only
    have hiff := announce_ok_iff hash cid hh (tries n) (linkAfter hash cid tries l n)
    have hnp := announce_no_panic hash cid (tries n) (linkAfter hash cid tries l n)
    have hl : linkAfter hash cid tries l (n + 1) = (peerAnnounce hash cid (tries n) (linkAfter hash cid tries l n)).1 := rfl
    rcases hf : peerAnnounce hash cid (tries n) (linkAfter hash cid tries l n) with ⟨s', v | e | e⟩
    · rw [hf] at hiff hl
      exact ⟨n, by omega, by omega, hbad, hstop, by simp [hl], .inl ⟨rfl, hiff.1 rfl⟩⟩
    · rw [hf] at hiff hl
      have hnr : ¬ Reached hash (tries n) := fun h => by cases hiff.2 h
      simp only
      by_cases h0 : left = 0
      · rw [if_pos h0]
        exact ⟨n, by omega, by omega, hbad, hstop, by simp [hl], .inr ⟨by simp, hnr, .inl (by omega)⟩⟩
      · rw [if_neg h0]
        by_cases hs : stop n = true
        · rw [if_pos hs]
          exact ⟨n, by omega, by omega, hbad, hstop, by simp [hl], .inr ⟨by simp, hnr, .inr hs⟩⟩
        · rw [if_neg hs]
          simp only at hl
          have := ih (n + 1) (by omega)
            (fun k hk => by
              by_cases e : k = n
              · exact e ▸ hnr
              · exact hbad k (by omega))
            (fun k hk => by
              by_cases e : k = n
              · subst e; simpa using hs
              · exact hstop k (by omega))
          rw [hl] at this
          obtain ⟨m, h1, h2, h3, h4, h5, h6⟩ := this
          refine ⟨m, by omega, by omega, h3, h4, h5, ?_⟩
          rcases h6 with h6 | ⟨h6, h7, h8⟩
          · exact .inl h6
          · exact .inr ⟨h6, h7, by rcases h8 with h8 | h8 <;> first | exact .inl (by omega) | exact .inr h8⟩
    · rw [hf] at hnp
      exact absurd rfl (hnp e)

theorem start_shape (hash cid : Bytes) (hh : hash.length = 20) (tries : Nat → Attempt) (stop : Nat → Bool) (l : Link) :
    ∃ m, m < 5 ∧ (∀ k, k < m → ¬ Reached hash (tries k)) ∧ (∀ k, k < m → stop k = false) ∧
      (startPeerDownload hash cid tries false stop l).1 = linkAfter hash cid tries l (m + 1) ∧
      ((startPeerDownload hash cid tries false stop l).2 = true ∧ Reached hash (tries m) ∨
        (startPeerDownload hash cid tries false stop l).2 = false ∧ ¬ Reached hash (tries m) ∧ (m = 4 ∨ stop m = true)) := by
  obtain ⟨m, h1, h2, h3, h4, h5, h6⟩ := loop_shape hash cid hh tries stop l 5 0 (by omega) (by intro k hk; omega) (by intro k hk; omega)
  refine ⟨m, by omega, h3, h4, ?_⟩
  unfold startPeerDownload announceToPeer retryDo
  simp only [Bool.false_eq_true, if_false]
  simp only [linkAfter] at h5 h6
  rcases hr : retryLoop (fun n l => peerAnnounce hash cid (tries n) l) stop () 5 0 l with ⟨l', outs, r⟩
  rw [hr] at h5 h6
  cases r with
  | ok v =>
    refine ⟨h5, .inl ⟨rfl, ?_⟩⟩
    rcases h6 with h6 | h6
    · exact h6.2
    · exact absurd rfl h6.1
  | _ =>
    refine ⟨h5, .inr ⟨rfl, ?_⟩⟩
    rcases h6 with h6 | h6
    · cases h6.1
    · exact ⟨h6.2.1, by rcases h6.2.2 with h | h <;> first | exact .inl (by omega) | exact .inr h⟩

/-- C85: a peer is talked to exactly if, nothing having been cancelled before, one of the first five attempts reaches a peer
that introduces itself with the torrent's hash. -/
theorem C85_started_iff (hash cid : Bytes) (hh : hash.length = 20) (tries : Nat → Attempt) (before : Bool) (stop : Nat → Bool)
    (l : Link) :
    (startPeerDownload hash cid tries before stop l).2 = true ↔
      before = false ∧ ∃ m, m < 5 ∧ Reached hash (tries m) ∧ (∀ k, k < m → ¬ Reached hash (tries k) ∧ stop k = false) := by
  cases before with
  | true =>
    have : (startPeerDownload hash cid tries true stop l).2 = false := rfl
    simp [this]
  | false =>
    obtain ⟨m, h1, h2, h3, h4, h5⟩ := start_shape hash cid hh tries stop l
    simp only [true_and]
    constructor
    · intro h
      rcases h5 with h5 | h5
      · exact ⟨m, h1, h5.2, fun k hk => ⟨h2 k hk, h3 k hk⟩⟩
      · rw [h] at h5; cases h5.1
    · rintro ⟨m', g1, g2, g3⟩
      rcases h5 with h5 | ⟨_, h5, h6⟩
      · exact h5.1
      · rcases Nat.lt_trichotomy m' m with hlt | rfl | hlt
        · exact absurd g2 (h2 m' hlt)
        · exact absurd g2 h5
        · rcases h6 with rfl | h6
          · omega
          · rw [(g3 m hlt).2] at h6; cases h6

/-- C85: when `Run` starts, what it reads is exactly what the peer sent after its handshake, on the connection of the attempt
that succeeded. -/
theorem C85_handover (hash cid : Bytes) (hh : hash.length = 20) (tries : Nat → Attempt) (before : Bool) (stop : Nat → Bool) (l : Link)
    (hs : (startPeerDownload hash cid tries before stop l).2 = true) :
    ∃ m, m < 5 ∧ Reached hash (tries m) ∧ (∀ k, k < m → ¬ Reached hash (tries k)) ∧
      ∀ more rest, Introduces hash (tries m).evs more rest →
        ∃ segs', (startPeerDownload hash cid tries before stop l).1.conn =
          some (l.opened + established tries m, deliver segs' ++ rest) ∧ segs'.flatten = more := by
  cases before with
  | true => cases hs
  | false =>
    obtain ⟨m, h1, h2, h3, h4, h5⟩ := start_shape hash cid hh tries stop l
    rcases h5 with ⟨_, h5⟩ | ⟨h5, _⟩
    · refine ⟨m, h1, h5, h2, fun more rest hi => ?_⟩
      obtain ⟨segs', g1, g2⟩ := announce_conn hash cid hh (tries m) (linkAfter hash cid tries l m) h5.1 h5.2.1 hi
      refine ⟨segs', ?_, g2⟩
      rw [h4, linkAfter, g1, linkAfter_opened]
    · rw [hs] at h5; cases h5

theorem linkAfter_sent (hash cid : Bytes) (tries : Nat → Attempt) (n : Nat) :
    (linkAfter hash cid tries Link.new n).sent =
      (List.range (established tries n)).map (fun k => (k, torrentGreeting ++ List.replicate 8 0 ++ hash ++ cid)) := by
  have he : createHandshake hash cid = torrentGreeting ++ List.replicate 8 0 ++ hash ++ cid := by
    rw [torrentGreeting_eq, ← bittorrentProto_eq]
    unfold createHandshake
    rw [bittorrentProto_length]
    simp [putBE]
  induction n with
  | zero => rfl
  | succ n ih =>
    simp only [linkAfter, (announce_link hash cid (tries n) _).2.2.2, ih, established]
    split
    · rw [List.range_succ, List.map_append, linkAfter_opened, he]; simp [Link.new]
    · simp

/-- C85: the first thing written to every connection, and the only thing before `Run`, is the handshake of BEP 3 for the torrent
and our id. -/
theorem C85_written (hash cid : Bytes) (hh : hash.length = 20) (tries : Nat → Attempt) (before : Bool) (stop : Nat → Bool) :
    (startPeerDownload hash cid tries before stop Link.new).1.sent =
      (List.range (startPeerDownload hash cid tries before stop Link.new).1.opened).map
        (fun k => (k, torrentGreeting ++ List.replicate 8 0 ++ hash ++ cid)) := by
  cases before with
  | true => rfl
  | false =>
    obtain ⟨m, _, _, _, h4, _⟩ := start_shape hash cid hh tries stop Link.new
    have e0 : Link.new.opened = 0 := rfl
    rw [h4, linkAfter_sent, linkAfter_opened, e0, Nat.zero_add]

/-! ### Connections left open -/

/-- C86, exact: no connection is closed while contacting a peer; every one that was established is still open. When `Stop` then
closes the peer, exactly the connection of the last attempt is closed, and if in that attempt none was established, `Close`
panics. -/
theorem C86_open_partial (hash cid : Bytes) (hh : hash.length = 20) (tries : Nat → Attempt) (stop : Nat → Bool) :
    ∃ m, LastAttempt hash tries stop m ∧
      (∀ k, StillOpen (startPeerDownload hash cid tries false stop Link.new).1 k ↔ k < established tries (m + 1)) ∧
      ((tries m).dial = none → (peerClose (startPeerDownload hash cid tries false stop Link.new).1).2 = .ok () ∧
        ∀ k, StillOpen (peerClose (startPeerDownload hash cid tries false stop Link.new).1).1 k ↔ k < established tries m) ∧
      ((tries m).dial ≠ none → ∃ e, (peerClose (startPeerDownload hash cid tries false stop Link.new).1).2 = .panic e) := by
  obtain ⟨m, h1, h2, h3, h4, h5⟩ := start_shape hash cid hh tries stop Link.new
  refine ⟨m, ⟨h1, fun k hk => ⟨h2 k hk, h3 k hk⟩, ?_⟩, ?_, ?_, ?_⟩
  · rcases h5 with h5 | h5
    · exact .inl h5.2
    · exact .inr h5.2.2
  · intro k
    unfold StillOpen
    rw [h4, linkAfter_opened, linkAfter_closed]
    simp [Link.new]
  · intro hd
    have hc := (announce_link hash cid (tries m) (linkAfter hash cid tries Link.new m)).2.2.1
    rw [if_pos hd, linkAfter_opened] at hc
    unfold peerClose
    rw [h4]
    have ho := linkAfter_opened hash cid tries Link.new (m + 1)
    have hcl := linkAfter_closed hash cid tries Link.new (m + 1)
    simp only [established, if_pos hd] at ho
    rcases hx : (linkAfter hash cid tries Link.new (m + 1)).conn with _ | ⟨c, evs⟩
    · rw [linkAfter] at hx; rw [hx] at hc; cases hc
    · have hc' : c = established tries m := by
        rw [linkAfter] at hx; rw [hx] at hc
        simpa [Link.new] using hc
      refine ⟨rfl, fun k => ?_⟩
      have e0 : Link.new.opened = 0 := rfl
      have e1 : Link.new.closed = [] := rfl
      simp only [StillOpen, ho, hcl, hc', e0, e1, List.mem_cons, List.not_mem_nil, or_false]
      omega
  · intro hd
    have hc := (announce_link hash cid (tries m) (linkAfter hash cid tries Link.new m)).2.2.1
    rw [if_neg hd] at hc
    refine ⟨"nil pointer dereference", ?_⟩
    unfold peerClose
    rw [h4]
    rw [linkAfter]
    rcases hx : (peerAnnounce hash cid (tries m) (linkAfter hash cid tries Link.new m)).1.conn with _ | ⟨c, evs⟩
    · rfl
    · rw [hx] at hc; cases hc

/-- C86 holds for a peer reached at the first attempt: after `Stop` has closed it nothing is open. -/
theorem C86_first_partial (hash cid : Bytes) (hh : hash.length = 20) (tries : Nat → Attempt) (stop : Nat → Bool)
    (h : Reached hash (tries 0)) :
    (peerClose (startPeerDownload hash cid tries false stop Link.new).1).2 = .ok () ∧
    ∀ k, ¬ StillOpen (peerClose (startPeerDownload hash cid tries false stop Link.new).1).1 k := by
  obtain ⟨m, ⟨_, h2, _⟩, _, h4, _⟩ := C86_open_partial hash cid hh tries stop
  have hm : m = 0 := by
    rcases Nat.eq_zero_or_pos m with h0 | h0
    · exact h0
    · exact absurd h (h2 0 h0).1
  subst hm
  obtain ⟨h5, h6⟩ := h4 h.1
  exact ⟨h5, fun k hk => by simpa [established] using (h6 k).1 hk⟩

/-- What C86 asks for: once a peer has been closed, none of its connections is open. -/
def AllClosed : Prop :=
  ∀ (hash cid : Bytes) (tries : Nat → Attempt) (stop : Nat → Bool), hash.length = 20 →
    (peerClose (startPeerDownload hash cid tries false stop Link.new).1).2 = .ok () →
    ∀ k, ¬ StillOpen (peerClose (startPeerDownload hash cid tries false stop Link.new).1).1 k

/-- Somebody who accepts connections and says nothing. -/
def silentTries : Nat → Attempt := fun _ => { dial := none, write := none, evs := [] }

theorem silent_not_reached (hash : Bytes) (n : Nat) : ¬ Reached hash (silentTries n) := by
  rintro ⟨_, _, more, rest, segs, reserved, id, he, _, _, hs⟩
  have h0 : deliver segs = [] := by
    have : deliver segs ++ rest = [] := he.symm
    exact (List.append_eq_nil_iff.1 this).1
  have : segs = [] := by
    cases segs with
    | nil => rfl
    | cons s t => simp [deliver] at h0
  subst this
  have := congrArg List.length hs
  simp [torrentGreeting_length] at this
  omega

/-- C86 is false of the code: a peer that accepts connections and stays silent is contacted five times, and four of the five
connections are still open after `Stop` has closed the peer. -/
theorem C86_leak_violated : ¬ AllClosed ∧ ∀ (hash cid : Bytes), hash.length = 20 →
    (startPeerDownload hash cid silentTries false (fun _ => false) Link.new).2 = false ∧
    (peerClose (startPeerDownload hash cid silentTries false (fun _ => false) Link.new).1).2 = .ok () ∧
    ∀ k, StillOpen (peerClose (startPeerDownload hash cid silentTries false (fun _ => false) Link.new).1).1 k ↔ k < 4 := by
  have key : ∀ (hash cid : Bytes), hash.length = 20 →
      (startPeerDownload hash cid silentTries false (fun _ => false) Link.new).2 = false ∧
      (peerClose (startPeerDownload hash cid silentTries false (fun _ => false) Link.new).1).2 = .ok () ∧
      ∀ k, StillOpen (peerClose (startPeerDownload hash cid silentTries false (fun _ => false) Link.new).1).1 k ↔ k < 4 := by
    intro hash cid hh
    refine ⟨?_, ?_⟩
    · have := C85_started_iff hash cid hh silentTries false (fun _ => false) Link.new
      cases hb : (startPeerDownload hash cid silentTries false (fun _ => false) Link.new).2 with
      | false => rfl
      | true =>
        obtain ⟨_, m, _, hm, _⟩ := this.1 hb
        exact absurd hm (silent_not_reached hash m)
    · obtain ⟨m, ⟨h1, h2, h3⟩, _, h5, _⟩ := C86_open_partial hash cid hh silentTries (fun _ => false)
      have hm : m = 4 := by
        rcases h3 with h3 | h3 | h3
        · exact absurd h3 (silent_not_reached hash m)
        · exact h3
        · cases h3
      subst hm
      exact h5 rfl
  refine ⟨fun h => ?_, key⟩
  have hh : (List.replicate 20 (0 : UInt8)).length = 20 := by simp
  obtain ⟨_, h2, h3⟩ := key _ [] hh
  exact h _ [] silentTries _ hh h2 0 ((h3 0).2 (by omega))

/-! ### Concrete cases -/

/-- A peer that refuses the first connection and then answers, in two segments, followed by an unchoke message. -/
def secondTry : Nat → Attempt
  | 0 => { dial := some "connection refused", write := none, evs := [] }
  | _ => { dial := none, write := none,
           evs := [.data (torrentGreeting ++ List.replicate 8 0), .data (List.replicate 20 7 ++ List.replicate 20 9 ++ [0, 0, 0, 1, 1]), .eof] }

example : Reached (List.replicate 20 7) (secondTry 1) :=
  ⟨rfl, rfl, [0, 0, 0, 1, 1], [.eof],
    [torrentGreeting ++ List.replicate 8 0, List.replicate 20 7 ++ List.replicate 20 9 ++ [0, 0, 0, 1, 1]],
    List.replicate 8 0, List.replicate 20 9, by simp [deliver, secondTry], by simp, by simp, by simp⟩

example : (startPeerDownload (List.replicate 20 7) [] secondTry false (fun _ => false) Link.new).2 = true ∧
    (startPeerDownload (List.replicate 20 7) [] secondTry false (fun _ => false) Link.new).1.conn =
      some (0, [.data [0, 0, 0, 1, 1], .eof]) := by decide

/-- The same peer for another torrent is not talked to, and leaves three connections open after closing. -/
example : (startPeerDownload (List.replicate 20 8) [] secondTry false (fun _ => false) Link.new).2 = false ∧
    (peerClose (startPeerDownload (List.replicate 20 8) [] secondTry false (fun _ => false) Link.new).1).1.opened = 4 ∧
    (peerClose (startPeerDownload (List.replicate 20 8) [] secondTry false (fun _ => false) Link.new).1).1.closed = [3] := by decide

end Gotit.Props
