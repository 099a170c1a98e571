import Verif.Spec.Events
import Verif.Props.HttpTracker
import Verif.Props.UdpTracker
/-
  C100: every announce over HTTP says "started".
-/
namespace Gotit.Props
open Gotit Spec

/-- The event of a tracker object never changes. -/
theorem readPeers_event (parseAddr : Bytes → Option Addr) (t : HttpTracker) (res : Bytes) :
    (readPeers parseAddr t res).1.event = t.event ∧ (readPeers parseAddr t res).1.addr = t.addr := by
  unfold readPeers
  split
  · exact ⟨rfl, rfl⟩
  · exact ⟨rfl, rfl⟩
  · simp only
    split
    · exact ⟨rfl, rfl⟩
    · split
      · exact ⟨rfl, rfl⟩
      · split <;> exact ⟨rfl, rfl⟩

theorem httpAnnounce_event (parseAddr : Bytes → Option Addr) (t : HttpTracker) (r : HttpReply) :
    (httpAnnounce parseAddr t r).1.event = t.event ∧ (httpAnnounce parseAddr t r).1.addr = t.addr := by
  unfold httpAnnounce
  split
  · exact ⟨rfl, rfl⟩
  · split
    · exact ⟨rfl, rfl⟩
    · exact readPeers_event _ _ _

theorem announceTries_event (parseAddr : Bytes → Option Addr) : ∀ (rs : List HttpReply) (t : HttpTracker),
    (announceTries parseAddr t rs).1.event = t.event ∧ (announceTries parseAddr t rs).1.addr = t.addr := by
  intro rs
  induction rs with
  | nil => intro t; exact ⟨rfl, rfl⟩
  | cons r rs ih =>
    intro t
    have h := httpAnnounce_event parseAddr t r
    unfold announceTries
    split
    · rename_i t' e he
      rw [he] at h
      split
      · exact h
      · have := ih t'; exact ⟨this.1.trans h.1, this.2.trans h.2⟩
    · exact h

/-- The event found in one request. -/
theorem announceUrl_event (clientId : Bytes) (t : HttpTracker) (hash : Bytes) (d : AnnounceData) (ht : ∀ c ∈ t.addr, c ≠ 63 ∧ c ≠ 35) :
    eventsIn (announceUrl clientId t hash d) = some [t.event] := by
  obtain ⟨q, ps, h1, h2, h3⟩ := C22_params_partial clientId t hash d ht
  simp only [eventsIn, h1, h2, Option.map_some, Option.some.injEq]
  have h4 := (h3.filter (fun e => e.1 == ascii "event")).map Prod.snd
  have : (([(ascii "info_hash", hash), (ascii "peer_id", clientId), (ascii "port", itoa d.port),
        (ascii "downloaded", itoa d.downloaded), (ascii "uploaded", itoa d.uploaded), (ascii "left", itoa d.left),
        (ascii "numwant", ascii "50"), (ascii "event", t.event), (ascii "trackerid", t.trackerId),
        (ascii "no_peer_id", ascii "1"), (ascii "compact", ascii "1")] : List (Bytes × Bytes)).filter
          (fun e => e.1 == ascii "event")).map Prod.snd = [t.event] := by
    simp only [List.filter_cons, List.filter_nil]
    simp [ascii]
  rw [this] at h4
  exact List.perm_singleton.1 h4

theorem announceUrls_event (parseAddr : Bytes → Option Addr) (clientId hash : Bytes) : ∀ (rs : List (AnnounceData × HttpReply)) (t : HttpTracker),
    (∀ c ∈ t.addr, c ≠ 63 ∧ c ≠ 35) → ∀ u ∈ announceUrls parseAddr clientId hash t rs, eventsIn u = some [t.event] := by
  intro rs
  induction rs with
  | nil => intro t _ u hu; simp [announceUrls] at hu
  | cons x rs ih =>
    intro t ht u hu
    obtain ⟨d, r⟩ := x
    unfold announceUrls at hu
    rcases List.mem_cons.1 hu with rfl | hu
    · exact announceUrl_event clientId t hash d ht
    · have h := httpAnnounce_event parseAddr t r
      split at hu
      · rename_i t' e he
        rw [he] at h
        rw [← h.1]
        exact ih t' (by rw [h.2]; exact ht) u hu
      · cases hu

/-- Every request of a download to a tracker says that the download starts, from the first to the last, whatever the tracker answers
and however much is downloaded. -/
theorem C100_always_partial (parseAddr : Bytes → Option Addr) (clientId hash addr trackerId : Bytes) (ht : ∀ c ∈ addr, c ≠ 63 ∧ c ≠ 35)
    (rounds : List (List (AnnounceData × HttpReply))) :
    ∀ urls ∈ runHttpUrls parseAddr clientId hash (newHttpTracker addr trackerId) rounds, ∀ u ∈ urls, eventsIn u = some [ascii "started"] := by
  have key : ∀ (rounds : List (List (AnnounceData × HttpReply))) (t : HttpTracker), (∀ c ∈ t.addr, c ≠ 63 ∧ c ≠ 35) →
      ∀ urls ∈ runHttpUrls parseAddr clientId hash t rounds, ∀ u ∈ urls, eventsIn u = some [t.event] := by
    intro rounds
    induction rounds with
    | nil => intro t _ urls hu; simp [runHttpUrls] at hu
    | cons r rs ih =>
      intro t ht urls hu u hm
      unfold runHttpUrls at hu
      rcases List.mem_cons.1 hu with rfl | hu
      · exact announceUrls_event parseAddr clientId hash r t ht u hm
      · have h := announceTries_event parseAddr (r.map Prod.snd) t
        rw [← h.1]
        exact ih _ (by rw [h.2]; exact ht) urls hu u hm
  exact key rounds (newHttpTracker addr trackerId) ht

/-- C100 is false of the code: whenever a tracker is announced to a second time, it is told again that the download starts. -/
theorem C100_violated (parseAddr : Bytes → Option Addr) (clientId hash addr trackerId : Bytes) (ht : ∀ c ∈ addr, c ≠ 63 ∧ c ≠ 35)
    (r1 r2 : AnnounceData × HttpReply) :
    ¬ StartedOnce (runHttpUrls parseAddr clientId hash (newHttpTracker addr trackerId) [[r1], [r2]]) := by
  intro h
  have hl : ∃ u rest, (runHttpUrls parseAddr clientId hash (newHttpTracker addr trackerId) [[r1], [r2]])[1]? = some (u :: rest) := by
    obtain ⟨d, r⟩ := r2
    exact ⟨_, _, rfl⟩
  obtain ⟨u, rest, hl⟩ := hl
  exact h 1 (by omega) _ hl u (by simp) (C100_always_partial parseAddr clientId hash addr trackerId ht _ _ (List.mem_of_getElem? hl) u (by simp))

/-- UDP trackers are never told that the download starts: the event in the datagram is 0, which means none. -/
theorem C100_udp_violated (clientId : Bytes) (hc : clientId.length = 20) (connId tid : Nat) (hash : Bytes) (d : AnnounceData) (key : Nat)
    (h1 : d.downloaded < 2 ^ 64) (h2 : d.left < 2 ^ 64) (h3 : d.uploaded < 2 ^ 64) (hk : key < 2 ^ 32) (hp : 0 ≤ d.port)
    (hp' : d.port < 65536) : numberAt (createAnnounce clientId connId tid hash d key) 60 4 = 0 :=
  (C23_fields_partial clientId hc connId tid hash d key h1 h2 h3 hk hp hp').2.2.2.1

/-- The hypotheses are met by an ordinary tracker URL; two rounds, in the second of which everything has been downloaded. -/
example : eventsIn (ascii "http://t/announce?compact=1&downloaded=9&event=started&left=0") = some [ascii "started"] := by decide +kernel
example : ¬ StartedOnce (runHttpUrls (fun _ => none) (ascii "c") (ascii "h") (newHttpTracker (ascii "http://t/announce") (ascii "i"))
    [[(⟨0, 0, 9, 6881⟩, .reply 200 (ascii "d5:peerslee"))], [(⟨9, 0, 0, 6881⟩, .fail "refused")]]) :=
  C100_violated _ _ _ _ _ (by decide) _ _

end Gotit.Props
