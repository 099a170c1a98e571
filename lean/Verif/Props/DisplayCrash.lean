import Verif.Props.Display
import Verif.Props.WriterCrash
import Verif.Props.Publish
/-
  A peer that sends a right piece again and again crashes the program through its display.
-/
namespace Gotit.Props
open Gotit Spec

variable {sha1 : Bytes → Bytes} {t : Torrent} {disk : Disk}

/-- The writer never panics: it gets through with the message it is given. -/
theorem At.goesOn (hdead : ∀ W, World.Reachable sha1 t (newPeer t) disk W → W.dead = false) {r : Run} {o : Written} {w : List PeerMessage}
    {tr : List (Nat × RunEv)} {m : PeerMessage} (a : At sha1 t (newPeer t) disk r [m] none o w tr) :
    ∃ o', writeOneF Faults.none t o m = .ok o' ∧ At sha1 t (newPeer t) disk r [] none o' (w ++ [m]) tr := by
  obtain ⟨o', h⟩ : ∃ o', writeOneF Faults.none t o m = .ok o' := by
    apply Classical.byContradiction
    intro hn
    obtain ⟨W, hW, s⟩ := a
    have h1 := hW.step (.receive s.isAlive s.inHand s.buffer)
    have := hdead _ (h1.step (.writeCrash (m := m) Faults.none ⟨s.dead, s.isAlive.2⟩ rfl (by
      intro w hw
      simp only [s.out] at hw
      exact hn ⟨w, hw⟩)))
    cases this
  exact ⟨o', h, a.written h⟩

theorem pushed_handle {m : PeerMessage} {f : Bytes} (hf : newPeerMessage f = .ok m) (ht : m.type = pieceType)
    (ha : acceptPiece sha1 t m = .ok (some m)) (s : Run) (u : Bool) :
    s.handle sha1 t f u = { s with log := s.log ++ [.received f], peer := { s.peer with bitset := s.peer.bitset.set m.index }, loc := .deliver m u } := by
  unfold Run.handle
  rw [hf]
  simp [Res.bind, Peer.handlePeerMessage, ht, ha, keepaliveType, bitfieldType, haveType, interestedType, notInterestedType, chokeType, unchokeType, pieceType]

/-- A peer that was not asked sends a piece twice while `Run` goes through its loop once. -/
theorem At.pushTwice (hdead : ∀ W, World.Reachable sha1 t (newPeer t) disk W → W.dead = false) {r : Run} {o : Written} {w : List PeerMessage}
    {tr : List (Nat × RunEv)} {m : PeerMessage} {f : Bytes} (a : At sha1 t (newPeer t) disk r [] none o w tr) (h1 : r.loc = .loopTop)
    (h2 : r.peer.clientChoked = true) (hd : o.downloaded.all = false) (hf : newPeerMessage f = .ok m)
    (ht : m.type = pieceType) (ha : acceptPiece sha1 t m = .ok (some m)) :
    ∃ r' o1 o2, writeOneF Faults.none t o m = .ok o1 ∧ writeOneF Faults.none t o1 m = .ok o2 ∧
      At sha1 t (newPeer t) disk r' [] none o2 (w ++ [m, m])
        (tr ++ [(0, .sent interestedMessage), (0, .received f), (0, .accepted m), (0, .received f), (0, .accepted m)]) ∧
      r'.loc = .loopTop ∧ r'.peer.clientChoked = true := by
  have s1 := a.silent (.ctxOk h1 rfl) rfl (by simp [Run.goto])
  have s2 := s1.silent (.notDone rfl hd) rfl (by simp [Run.goto])
  have s3 := s2.silent (.notDue rfl) rfl (by simp [Run.goto])
  have s4 := s3.silent (.choked rfl h2) rfl (by simp [Run.goto])
  have s5 := s4.silent (.uCtxOk rfl rfl) rfl (by simp [Run.goto])
  have s6 := s5.quiet [.sent interestedMessage] (.uSent rfl) rfl (by simp [quietEv]) (by simp [Run.emit])
  have hu : ∀ s : Run, s.loc = .unchokeRead → Run.Step sha1 t s { s with log := s.log ++ [.received f], peer := { s.peer with bitset := s.peer.bitset.set m.index }, loc := .deliver m true } := by
    intro s hs
    rw [← pushed_handle hf ht ha s true]
    exact .uRead f hs
  have hr : ∀ s : Run, s.loc = .read → Run.Step sha1 t s { s with log := s.log ++ [.received f], peer := { s.peer with bitset := s.peer.bitset.set m.index }, loc := .deliver m false } := by
    intro s hs
    rw [← pushed_handle hf ht ha s false]
    exact .read f hs
  have s7 := s6.quiet [.received f] (hu _ rfl) rfl (by simp [quietEv]) (by simp)
  have s8 := s7.accept rfl (by decide)
  obtain ⟨o1, w1, s9⟩ := s8.goesOn hdead
  have s10 := s9.silent (.noRequest rfl (.inl h2)) rfl (by simp [Run.goto])
  have s11 := s10.quiet [.received f] (hr _ rfl) rfl (by simp [quietEv]) (by simp)
  have s12 := s11.accept rfl (by decide)
  obtain ⟨o2, w2, s13⟩ := s12.goesOn hdead
  have e : ∀ (x : List (Nat × RunEv)) (y : List PeerMessage) (r' : Run), At sha1 t (newPeer t) disk r' [] none o2 y x →
      x = tr ++ [(0, .sent interestedMessage), (0, .received f), (0, .accepted m), (0, .received f), (0, .accepted m)] → y = w ++ [m, m] →
      At sha1 t (newPeer t) disk r' [] none o2 (w ++ [m, m])
        (tr ++ [(0, .sent interestedMessage), (0, .received f), (0, .accepted m), (0, .received f), (0, .accepted m)]) := fun x y r' a hx hy => hx ▸ hy ▸ a
  exact ⟨_, o1, o2, w1, w2, e _ _ _ s13 (by simp) (by simp), rfl, h2⟩

/-- Any number of times, as long as the torrent does not count as done. -/
theorem At.pushMany (hdead : ∀ W, World.Reachable sha1 t (newPeer t) disk W → W.dead = false) {m : PeerMessage} {f : Bytes} (hf : newPeerMessage f = .ok m)
    (ht : m.type = pieceType) (ha : acceptPiece sha1 t m = .ok (some m)) (D : BitSet → Prop) (h0 : D t.downloaded) (hD : ∀ b, D b → b.all = false)
    (hs : ∀ o o', D o.downloaded → writeOneF Faults.none t o m = .ok o' → D o'.downloaded) :
    ∀ N, ∃ r o w tr, At sha1 t (newPeer t) disk r [] none o w tr ∧ w = List.replicate (2 * N) m ∧ (∀ i g, (i, RunEv.received g) ∈ tr → g = f) ∧
      r.loc = .loopTop ∧ r.peer.clientChoked = true ∧ D o.downloaded
  | 0 => by
    obtain ⟨r, a0, a1, a2, a3⟩ := At.start (sha1 := sha1) (t := t) (p0 := newPeer t) (disk := disk) rfl
    exact ⟨r, _, _, _, a0, rfl, (by intro i g h; cases h), a1, a2, h0⟩
  | N + 1 => by
    obtain ⟨r, o, w, tr, a, rfl, h1, h2, h3, h4⟩ := At.pushMany hdead hf ht ha D h0 hD hs N
    obtain ⟨r', o1, o2, w1, w2, a', g1, g2⟩ := a.pushTwice hdead h2 h3 (hD _ h4) hf ht ha
    refine ⟨r', o2, _, _, a', ?_, ?_, g1, g2, hs _ _ (hs _ _ h4 w1) w2⟩
    · rw [show 2 * (N + 1) = 2 * N + 2 by omega, ← List.replicate_append_replicate]; rfl
    · intro i g h
      rcases List.mem_append.1 h with h | h
      · exact h1 i g h
      · simp at h
        exact h.2

/-- What a write can do to the set of pieces. -/
theorem written_set {fl : Faults} {o o' : Written} {m : PeerMessage} {d : Bytes} (hd : m.data = .ok d) (h : writeOneF fl t o m = .ok o') :
    o'.downloaded = o.downloaded ∨ (o'.downloaded = o.downloaded.set m.index ∧ (m.offset : Int) + d.length = t.pieceLength) := by
  obtain ⟨d', hd', _, h3⟩ := writeOneF_cases h
  rw [hd] at hd'
  cases hd'
  rcases h3 with h3 | ⟨h3, _⟩
  · unfold writeOne at h3
    rw [hd] at h3
    simp only at h3
    split at h3
    · split at h3
      · rename_i h4
        cases h3; exact .inr ⟨rfl, h4⟩
      · cases h3; exact .inl rfl
    · cases h3; exact .inl rfl
    · cases h3
  · exact .inl h3

/-- C137 is false of the code also because of the display: for every torrent there is an execution in which one peer sends the first piece, as it
is, several times, nobody interrupts anything, and the goroutine that prints the status line panics, which ends the program. -/
theorem C137_print_violated (S : JobSetup) (os : Os) (mi : Metainfo) (root : Bytes) (disk0 disk : Disk)
    (hn : newTorrent S.sha1 os mi root disk0 = (.ok S.t, disk)) (hsen : Sensible mi) (hm : Measured mi) (content : Bytes) (pl : Nat)
    (hc : ContentOf S.sha1 S.t content pl) (hne : content ≠ []) (hsz : content.length ≤ 2 ^ 51) (hpl : pl + 9 < 2 ^ 32) (hp : S.t.pieces ≠ [])
    (hh : S.t.hash.length = 20) (ipOf : Nat → AddrPort) (reply : Nat → HttpReply) (hs : Supply S ipOf reply 1) :
    ∃ W, Watched.Reachable S disk W ∧ W.prog.mgr.cancelled = false ∧ W.prog.alive ∧ W.display = .panicked ∧
      ∀ i f, (i, RunEv.received f) ∈ W.prog.world.trace → f = pieceFrame 0 0 (pieceOf content pl 0) := by
  obtain ⟨hr, hw, htot, _⟩ := C41_reachable _ _ _ _ _ _ _ hn hsen
  obtain ⟨k, k0, hdown, k1, k2, hidx⟩ := new_count hn hsen hc hne hsz (by omega)
  have hp0 := hc.positive
  have hpos := List.length_pos_iff.2 hne
  have hdead : ∀ W, World.Reachable S.sha1 S.t (newPeer S.t) disk W → W.dead = false :=
    fun W hW => C107_partial S.sha1 os mi root disk0 disk S.t W hm hn hW
  obtain ⟨b1, b2, b3, b4, b5⟩ := pieceMsg_ok 0 0 (pieceOf content pl 0) (by omega) (by omega)
  have hacc := pieceMsg_accepted hc (List.length_pos_iff.2 hp) (show 0 < 2 ^ 32 by omega) (show 0 < 2 ^ 32 by omega)
  generalize hfm : pieceFrame 0 0 (pieceOf content pl 0) = f at *
  have hfl : f.length < 2 ^ 32 := by
    rw [← hfm]
    have := pieceOf_length content pl 0
    simp [pieceFrame]
    omega
  generalize pieceMsg 0 0 (pieceOf content pl 0) = m at *
  have hlen : (pieceOf content pl 0).length = min pl content.length := by rw [pieceOf_length]; simp
  have hb : blockBytes m = min pl content.length := by unfold blockBytes; rw [b5]; exact hlen
  have hall : ∀ b : BitSet, b.len = k → b.bit (k - 1) = false → b.all = false := by
    intro b h1 h2
    cases h : b.all with
    | false => rfl
    | true =>
      rw [BitSet.all_iff] at h
      have := h (k - 1) (by omega)
      rw [h2] at this; cases this
  -- enough copies of the piece, of which all but the last two do not complete the torrent
  obtain ⟨N, r, o, w, tr, a, ha1, ha2, ha3, ha4, ha5, hN1, hN2⟩ : ∃ N r o w tr, At S.sha1 S.t (newPeer S.t) disk r [] none o w tr ∧
      w = List.replicate (2 * N) m ∧ (∀ i g, (i, RunEv.received g) ∈ tr → g = f) ∧ r.loc = .loopTop ∧ r.peer.clientChoked = true ∧
      o.downloaded.all = false ∧ 105 * content.length ≤ 100 * ((2 * N + 2) * blockBytes m) ∧ (2 * N + 2) * blockBytes m < 2 ^ 64 := by
    by_cases hfull : k = 1 ∧ content.length = pl
    · obtain ⟨r, a0, a1, a2, a3⟩ := At.start (sha1 := S.sha1) (t := S.t) (p0 := newPeer S.t) (disk := disk) rfl
      refine ⟨0, r, _, _, _, a0, rfl, (by intro i g h; cases h), a1, a2, hall _ (by rw [hdown]; rfl) (by rw [hdown]; simp [BitSet.new]), ?_, ?_⟩
      · rw [hb]; omega
      · rw [hb]; omega
    · have hL : 0 < blockBytes m := by rw [hb]; omega
      obtain ⟨r, o, w, tr, a, ha1, ha2, ha3, ha4, ha5⟩ := At.pushMany hdead b1 b2 hacc (fun b => b.len = k ∧ b.bit (k - 1) = false)
        ⟨by rw [hdown]; rfl, by rw [hdown]; simp [BitSet.new]⟩ (fun b hb => hall b hb.1 hb.2) (by
          intro o o' ⟨g1, g2⟩ hw'
          have hl := writeOneF_len hw' (by rw [b3, g1]; exact k0)
          refine ⟨hl.trans g1, ?_⟩
          rcases written_set b5 hw' with h | ⟨h, h'⟩
          · rw [h]; exact g2
          · have hk : k ≠ 1 := by
              intro hk
              rw [b4, hc.pieceLength] at h'
              simp only [hk, Nat.one_mul] at k2
              apply hfull
              refine ⟨hk, ?_⟩
              omega
            cases hbit : o'.downloaded.bit (k - 1) with
            | false => rfl
            | true =>
              obtain ⟨_, _, e, _⟩ := writeOneF_bit hw' g2 hbit
              rw [b3] at e
              omega) (content.length / blockBytes m)
      have hdm := Nat.div_add_mod content.length (blockBytes m)
      have hmod := Nat.mod_lt content.length hL
      have hbl : blockBytes m ≤ content.length := by rw [hb]; omega
      refine ⟨_, r, o, w, tr, a, ha1, ha2, ha3, ha4, hall _ ha5.1 ha5.2, ?_, ?_⟩
      · rw [Nat.add_mul, Nat.mul_assoc, Nat.mul_comm (content.length / blockBytes m)]
        generalize blockBytes m * (content.length / blockBytes m) = x at *
        omega
      · rw [Nat.add_mul, Nat.mul_assoc, Nat.mul_comm (content.length / blockBytes m)]
        generalize blockBytes m * (content.length / blockBytes m) = x at *
        omega
  obtain ⟨r', o1, o2, _, _, ⟨W, hW, so⟩, _, _⟩ := a.pushTwice hdead ha3 ha4 ha5 b1 b2 hacc
  have htr : ∀ i g, (i, RunEv.received g) ∈ W.trace → g = f := by
    intro i g h
    rw [so.trace] at h
    rcases List.mem_append.1 h with h | h
    · exact ha2 i g h
    · simp at h
      exact h.2
  obtain ⟨P, hL⟩ := lifted_any hs hh hW (one_queue so.peers) (fun i g h => by rw [htr i g h]; exact hfl) (by simp [so.peers]) (fun _ => [])
  have hP := hL.reach
  have hPW := hL.world
  obtain ⟨X, hX, hXP, hXa, hXd, _⟩ := watch_lift hP
  obtain ⟨nd, nl, wt⟩ := watching hX
  have hj := progJoined hP
  have hcan : P.mgr.cancelled = false := by rw [hj.cancelled, hPW]; exact so.cancelled
  have hal : P.alive := ⟨hL.panicked, by rw [hPW]; exact so.isAlive⟩
  have htaken : taken X.prog = List.replicate (2 * N + 2) m := by
    unfold taken
    rw [hXP, hPW, so.inHand, so.written, ha1, ← List.replicate_append_replicate]
    simp
  have hnd : nd = (taken X.prog).length := by
    rcases wt.adding with ⟨_, h, _⟩ | ⟨_, _, h, _⟩ | ⟨_, _, h, _⟩
    · exact h
    · rw [hXa] at h; cases h
    · rw [hXa] at h; cases h
  have hdl : X.stats.download = (2 * N + 2) * blockBytes m := by
    rw [wt.down, hnd]
    unfold firstBytes
    rw [List.take_length, htaken, List.map_replicate, List.sum_replicate_nat]
    exact Nat.mod_eq_of_lt hN2
  obtain ⟨_, _, _, _, e1, e2, e3, _⟩ := newTorrent_ok hn
  have hsize : X.stats.torrentSize = content.length := by
    rw [wt.size]
    unfold shownSize
    rw [← htot, ← hc.size]
    omega
  have hcrash : (progressBar (percentCompleted X.stats.torrentSize X.stats.download) 20).isPanic = true :=
    C60_violated X.stats (by omega) (by omega) (by rw [hsize, hdl]; exact hN1)
  have x1 := hX.step (.tick ⟨hXP ▸ hal, by rw [hXd]; simp⟩ hXd)
  have x2 := x1.step (.something ⟨hXP ▸ hal, by simp⟩ rfl (by
    show ¬ (X.stats.torrentSize = 0 ∨ X.stats.download = 0)
    omega))
  have x3 := x2.step (.divide ⟨hXP ▸ hal, by simp⟩ rfl)
  have x4 := x3.step (.drawCrash ⟨hXP ▸ hal, by simp⟩ rfl hcrash)
  exact ⟨_, x4, hXP ▸ hcan, hXP ▸ hal, rfl, fun i g h => htr i g (by rw [← hPW, ← hXP]; exact h)⟩

/-- A download of eight bytes, the first piece of which a peer sends three times or more. -/
example : ∃ t disk, newTorrent (twoPeers t).sha1 goodOs (fewBytes 8 2) (ascii "/r") (fun _ => []) = (.ok (twoPeers t).t, disk) ∧
    ∃ W, Watched.Reachable (twoPeers t) disk W ∧ W.prog.alive ∧ W.display = .panicked := by
  obtain ⟨t, d', h1, h2, h3, h4, _⟩ := fewBytes_opens 8 2 (by omega) (by omega) (by omega) [1, 2, 3, 4, 5, 6, 7, 8] rfl
  obtain ⟨_, _, _, _, _, _, _, _, hhash, _⟩ := newTorrent_ok h1
  obtain ⟨W, g1, _, g2, g3, _⟩ := C137_print_violated (twoPeers t) goodOs (fewBytes 8 2) (ascii "/r") (fun _ => []) d' h1 h2 ⟨by decide, by decide, by decide⟩
    _ _ h3 (by simp) (by simp) (by omega) (by intro h; rw [show (twoPeers t).t = t from rfl] at h; rw [h] at h4; simp at h4)
    (by show t.hash.length = 20; rw [hhash]; rfl) _ _ ((twoPeers_supply t).less (by omega))
  exact ⟨t, d', h1, W, g1, g2, g3⟩

end Gotit.Props
