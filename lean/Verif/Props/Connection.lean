import Verif.Model.Net
import Verif.Spec.Stream
import Verif.Lemmas.BE
/-
  C32, C33: framing of the peer stream.
-/
namespace Gotit.Props
open Gotit Spec

/-- `io.ReadFull` on a stream: the first `n` bytes, however they are cut. -/
theorem readFull_deliver : ∀ (segs : List Bytes) (n : Nat) (rest : List Ev), n ≤ segs.flatten.length →
    ∃ segs', readFull .stream n (deliver segs ++ rest) = (.ok (segs.flatten.take n), deliver segs' ++ rest) ∧
      segs'.flatten = segs.flatten.drop n := by
  intro segs
  induction segs with
  | nil => intro n rest h; simp at h; subst h; exact ⟨[], by simp [readFull], rfl⟩
  | cons d segs ih =>
    intro n rest h
    cases n with
    | zero => exact ⟨d :: segs, by simp [readFull], by simp⟩
    | succ n =>
      simp only [deliver, List.map_cons, List.cons_append, readFull]
      by_cases hd : n + 1 ≤ d.length
      · rw [if_pos hd]
        by_cases hlt : n + 1 < d.length
        · refine ⟨d.drop (n + 1) :: segs, ?_, ?_⟩
          · simp [putBack, hlt, List.take_append_of_le_length hd]
          · simp [List.drop_append_of_le_length hd]
        · have he : n + 1 = d.length := by omega
          refine ⟨segs, ?_, ?_⟩
          · simp [putBack, hlt, List.take_append_of_le_length hd]
          · simp [he]
      · rw [if_neg hd]
        obtain ⟨segs', h1, h2⟩ := ih (n + 1 - d.length) rest (by rw [List.flatten_cons, List.length_append] at h; omega)
        refine ⟨segs', ?_, ?_⟩
        · rw [← deliver, h1]
          simp only
          rw [List.flatten_cons, List.take_append, List.take_of_length_le (l := d) (by omega)]
          rfl
        · rw [h2, List.flatten_cons, List.drop_append, List.drop_eq_nil_of_le (as := d) (by omega), List.nil_append]

theorem readPeerMessage_deliver (segs : List Bytes) (rest : List Ev) (hdr body wire : Bytes) (hh : hdr.length = 4)
    (hb : getBE hdr = body.length) (hs : segs.flatten = hdr ++ (body ++ wire)) :
    ∃ segs', readPeerMessage (deliver segs ++ rest) = (.ok body, deliver segs' ++ rest) ∧ segs'.flatten = wire := by
  obtain ⟨s1, h1, h2⟩ := readFull_deliver segs 4 rest (by rw [hs]; simp; omega)
  rw [hs, take_prefix hh] at h1
  rw [hs, drop_prefix hh] at h2
  obtain ⟨s2, h3, h4⟩ := readFull_deliver s1 body.length rest (by rw [h2]; simp)
  rw [h2, take_prefix rfl] at h3
  rw [h2, drop_prefix rfl] at h4
  refine ⟨s2, ?_, h4⟩
  unfold readPeerMessage readExactly
  rw [h1]
  simp only
  rw [hb, h3]

/-- C32: however the network cuts the stream, `n` calls return the `n` message bodies in order, and what the peer sent
after them (`tail`) is still there for later calls. -/
theorem C32_framing (bodies : List Bytes) (wire tail : Bytes) (hsent : Sent bodies wire) (segs : List Bytes)
    (hcut : segs.flatten = wire ++ tail) (rest : List Ev) :
    ∃ segs', callTimes readPeerMessage bodies.length (deliver segs ++ rest) = (bodies.map .ok, deliver segs' ++ rest) ∧
      segs'.flatten = tail := by
  induction hsent generalizing segs with
  | nil => exact ⟨segs, rfl, by simpa using hcut⟩
  | @cons body restb hdr wire hh hb _ ih =>
    obtain ⟨s1, h1, h2⟩ := readPeerMessage_deliver segs rest hdr body (wire ++ tail) hh (by rw [← bigEndian_eq]; exact hb) (by simpa using hcut)
    obtain ⟨s2, h3, h4⟩ := ih s1 h2
    refine ⟨s2, ?_, h4⟩
    simp only [List.length_cons, callTimes, h1, h3, List.map_cons]

/-- Every sequence of messages (each shorter than 4 GiB) has a wire form. -/
theorem sent_exists (bodies : List Bytes) (h : ∀ b ∈ bodies, b.length < 2 ^ 32) : ∃ wire, Sent bodies wire := by
  induction bodies with
  | nil => exact ⟨[], .nil⟩
  | cons b bs ih =>
    obtain ⟨w, hw⟩ := ih (fun x hx => h x (by simp [hx]))
    exact ⟨_, .cons (hdr := putBE 4 b.length) (by simp) (bigEndian_putBE _ _ (h b (by simp))) hw⟩

/-- Two messages cut at arbitrary places, with a keep-alive between them. -/
example : callTimes readPeerMessage 3
    (deliver [[0, 0], [0, 1, 2, 0, 0, 0], [0], [], [0, 0, 0, 2, 7], [9]]) = ([.ok [2], .ok [], .ok [7, 9]], []) := by
  simp [callTimes, readPeerMessage, readExactly, deliver, readFull, putBack, getBE]

/-! Soundness for arbitrary event lists. -/

theorem readFull_exact : ∀ (n : Nat) (evs : List Ev) (b : Bytes) (evs' : List Ev), readFull .stream n evs = (.ok b, evs') →
    arriving evs = b ++ arriving evs' ∧ errors evs' = errors evs ∧ b.length = n := by
  intro n evs
  induction evs generalizing n with
  | nil =>
    intro b evs' h
    cases n with
    | zero => simp [readFull] at h; obtain ⟨rfl, rfl⟩ := h; simp
    | succ n => simp [readFull] at h
  | cons e evs ih =>
    intro b evs' h
    cases n with
    | zero => simp [readFull] at h; obtain ⟨rfl, rfl⟩ := h; simp
    | succ n =>
      cases e with
      | data d =>
        simp only [readFull] at h
        split at h
        · rename_i hd
          simp only [Prod.mk.injEq, Res.ok.injEq] at h
          obtain ⟨rfl, rfl⟩ := h
          simp only [putBack]
          split
          · simp only [arriving, List.flatMap_cons, errors, List.filter_cons, ← List.append_assoc, List.take_append_drop,
              List.length_take, true_and]
            simp; omega
          · have : n + 1 = d.length := by omega
            simp [arriving, errors, this]
        · rename_i hd
          split at h
          · rename_i r evs1 hr
            simp only [Prod.mk.injEq, Res.ok.injEq] at h
            obtain ⟨rfl, rfl⟩ := h
            obtain ⟨h1, h2, h3⟩ := ih _ _ _ hr
            refine ⟨?_, ?_, ?_⟩
            · simp only [arriving, List.flatMap_cons, List.append_assoc] at h1 ⊢
              rw [h1]
            · simpa [errors] using h2
            · simp [h3]; omega
          · rename_i x hx
            exact absurd h (by intro h; exact hx _ _ h)
      | timeout => simp [readFull] at h
      | fail e => simp [readFull] at h
      | eof => simp [readFull] at h

/-- C32, soundness: whatever happens on the connection, a call that succeeds consumed exactly one frame of the arriving
bytes and returned its body; no read error was swallowed. -/
theorem C32_sound (evs evs' : List Ev) (body : Bytes) (h : readPeerMessage evs = (.ok body, evs')) :
    ∃ hdr, hdr.length = 4 ∧ getBE hdr = body.length ∧ arriving evs = hdr ++ (body ++ arriving evs') ∧
      errors evs' = errors evs := by
  unfold readPeerMessage readExactly at h
  split at h
  · rename_i hdr evs1 h1
    obtain ⟨a1, a2, a3⟩ := readFull_exact _ _ _ _ h1
    obtain ⟨b1, b2, b3⟩ := readFull_exact _ _ _ _ h
    exact ⟨hdr, a3, b3.symm, by rw [a1, b1], by rw [b2, a2]⟩
  · rename_i x hx
    exact absurd h (by intro h; exact hx _ _ h)

/-! ## C33 -/

theorem readFull_short : ∀ (segs : List Bytes) (n : Nat) (rest : List Ev), segs.flatten.length < n →
    readFull .stream n (deliver segs ++ .timeout :: rest) = (.err "i/o timeout", rest) := by
  intro segs
  induction segs with
  | nil => intro n rest h; cases n with
    | zero => simp at h
    | succ n => simp [deliver, readFull]
  | cons d segs ih =>
    intro n rest h
    cases n with
    | zero => simp at h
    | succ n =>
      simp only [List.flatten_cons, List.length_append] at h
      simp only [deliver, List.map_cons, List.cons_append, readFull]
      rw [if_neg (by omega), ← deliver, ih _ _ (by omega)]

/-- C33, exact: if the deadline passes after a proper part `got` of the next frame has arrived, the call fails and those
bytes are gone: the next call starts reading in the middle of the frame. -/
theorem C33_timeout_partial (segs : List Bytes) (hdr body missing : Bytes) (hh : hdr.length = 4) (hb : getBE hdr = body.length)
    (hcut : segs.flatten ++ missing = hdr ++ body) (hm : missing ≠ []) (rest : List Ev) :
    readPeerMessage (deliver segs ++ .timeout :: rest) = (.err "i/o timeout", rest) := by
  have hlen : segs.flatten.length + missing.length = 4 + body.length := by
    have := congrArg List.length hcut
    simpa [hh] using this
  have hm' : 0 < missing.length := List.length_pos_iff.2 hm
  unfold readPeerMessage readExactly
  by_cases h4 : segs.flatten.length < 4
  · rw [readFull_short segs 4 rest h4]
  · obtain ⟨s1, h1, h2⟩ := readFull_deliver segs 4 (.timeout :: rest) (by omega)
    have e : segs.flatten.take 4 = hdr := by
      have := congrArg (List.take 4) hcut
      rwa [List.take_append_of_le_length (by omega), take_prefix hh] at this
    rw [h1]
    simp only
    rw [e, hb, readFull_short s1]
    rw [h2, List.length_drop]; omega

/-- C33 is false of the code, for every message `forged`: the peer sends the single message whose body is the frame of
`forged` (for example a block of file content), the deadline passes after the four length bytes, the call fails, and the
next call returns `forged`, which the peer never sent as a message. -/
theorem C33_resync_violated (forged : Bytes) (h : forged.length + 4 < 2 ^ 32) :
    ∃ wire before after, Sent [putBE 4 forged.length ++ forged] wire ∧ before ++ after = wire ∧
      readPeerMessage [.data before, .timeout, .data after] = (.err "i/o timeout", [.data after]) ∧
      readPeerMessage [.data after] = (.ok forged, []) ∧ forged ≠ putBE 4 forged.length ++ forged := by
  refine ⟨_, putBE 4 (putBE 4 forged.length ++ forged).length, putBE 4 forged.length ++ forged,
    .cons (hdr := putBE 4 (putBE 4 forged.length ++ forged).length) (by simp) ?_ .nil, by simp, ?_, ?_, ?_⟩
  · apply bigEndian_putBE; simp only [List.length_append, putBE_length]; omega
  · have := C33_timeout_partial [putBE 4 (putBE 4 forged.length ++ forged).length]
      (putBE 4 (putBE 4 forged.length ++ forged).length) (putBE 4 forged.length ++ forged) (putBE 4 forged.length ++ forged)
      (by simp) (by apply getBE_putBE; simp only [List.length_append, putBE_length]; omega) (by simp)
      (by intro h; have := congrArg List.length h; simp at this) [.data (putBE 4 forged.length ++ forged)]
    simpa [deliver] using this
  · have hw := readPeerMessage_deliver [putBE 4 forged.length ++ forged] [] (putBE 4 forged.length) forged [] (by simp)
      (getBE_putBE _ _ (by omega)) (by simp)
    unfold readPeerMessage readExactly
    simp only [readFull, List.length_append, putBE_length]
    rw [if_pos (by omega), take_prefix (by simp)]
    simp only [putBack, List.length_append, putBE_length]
    rw [getBE_putBE _ _ (by omega), drop_prefix (by simp)]
    cases forged with
    | nil => simp [readFull]
    | cons b bs => simp [readFull, putBack]
  · intro e; have := congrArg List.length e; simp at this

/-- C33 holds when the deadline passes between two messages: the call fails, nothing is lost, and the following calls
return exactly the messages the peer sent. -/
theorem C33_idle_partial (bodies : List Bytes) (wire tail : Bytes) (hsent : Sent bodies wire) (segs : List Bytes)
    (hcut : segs.flatten = wire ++ tail) (rest : List Ev) :
    ∃ segs', callTimes readPeerMessage (bodies.length + 1) (.timeout :: (deliver segs ++ rest)) =
      (.err "i/o timeout" :: bodies.map .ok, deliver segs' ++ rest) ∧ segs'.flatten = tail := by
  obtain ⟨s, h1, h2⟩ := C32_framing bodies wire tail hsent segs hcut rest
  refine ⟨s, ?_, h2⟩
  have : readPeerMessage (.timeout :: (deliver segs ++ rest)) = (.err "i/o timeout", deliver segs ++ rest) := by
    simp [readPeerMessage, readExactly, readFull]
  simp only [callTimes, this, h1]

example : Sent [[2], [], [7, 9]] [0, 0, 0, 1, 2, 0, 0, 0, 0, 0, 0, 0, 2, 7, 9] :=
  .cons (hdr := [0, 0, 0, 1]) rfl (by decide) (.cons (hdr := [0, 0, 0, 0]) rfl (by decide)
    (.cons (hdr := [0, 0, 0, 2]) rfl (by decide) .nil))

end Gotit.Props
