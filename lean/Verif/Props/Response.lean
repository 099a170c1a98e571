import Verif.Spec.Response
import Verif.Props.Events
import Verif.Props.TrackerClock
/-
  C120–C122: what a tracker says besides the IPv4 peers and the interval has no effect.
-/
namespace Gotit.Props
open Gotit Spec

/-! ## C120 -/

/-- Only three keys of a response matter: two responses that agree in them give the same peers and the same interval, whatever else
they say (`peers6`, `min interval`, `tracker id`, `warning message`, `complete`, …). -/
theorem C120_ignored_partial (parseAddr : Bytes → Option Addr) (t t' : HttpTracker) (body body' : Bytes) (kvs kvs' : List (Bytes × Bencode))
    (h : TopDict body kvs) (h' : TopDict body' kvs')
    (hk : ∀ k, k = ascii "failure reason" ∨ k = ascii "interval" ∨ k = ascii "peers" → lookupKey k kvs = lookupKey k kvs') (ips : List AddrPort) :
    readPeers parseAddr t body = (t', .ok ips) ↔ readPeers parseAddr t body' = (t', .ok ips) := by
  have key : ∀ b b' k k', TopDict b k → TopDict b' k' →
      (∀ x, x = ascii "failure reason" ∨ x = ascii "interval" ∨ x = ascii "peers" → lookupKey x k = lookupKey x k') → ∀ n vs ps,
      GoodResponse b n vs ps → GoodResponse b' n vs ps := by
    intro b b' k k' g g' hx n vs ps hg
    obtain ⟨k2, g2, a1, a2, a3, a4⟩ := hg.dict
    obtain ⟨p1, r1, e1⟩ := g
    obtain ⟨p2, r2, e2⟩ := g2
    rw [e1] at e2
    simp only [PRes.ok.injEq, Bencode.dict.injEq] at e2
    obtain ⟨_, e2, _⟩ := e2
    subst e2
    exact ⟨⟨k', g', by rw [← hx _ (.inl rfl)]; exact a1, by rw [← hx _ (.inr (.inl rfl))]; exact a2, by rw [← hx _ (.inr (.inr rfl))]; exact a3, a4⟩⟩
  rw [C17_success_iff_partial, C17_success_iff_partial]
  constructor
  · rintro ⟨n, vs, ps, hg, rest⟩
    exact ⟨n, vs, ps, key _ _ _ _ h h' hk n vs ps hg, rest⟩
  · rintro ⟨n, vs, ps, hg, rest⟩
    exact ⟨n, vs, ps, key _ _ _ _ h' h (fun x hx => (hk x hx).symm) n vs ps hg, rest⟩

/-- C120 is violated by every response that names an IPv6 peer under `peers6`, unless the list under `peers` names it too. -/
theorem C120_violated (parseAddr : Bytes → Option Addr) (t : HttpTracker) (body addr : Bytes) (port : Nat) (h : Names6 body addr port)
    (hp : ∀ n vs ps, GoodResponse body n vs ps → ∀ p ∈ ps, parseAddr p.1 ≠ some (.v6 addr [])) : ¬ Uses6 parseAddr t body := by
  intro hu
  obtain ⟨t', ips, hok, hm⟩ := hu addr port h
  obtain ⟨n, vs, ps, hg, rfl, _⟩ := (C17_success_iff_partial parseAddr t t' body ips).1 hok
  obtain ⟨p, hm, hp2⟩ := List.mem_map.1 hm
  unfold peerAddr at hp2
  split at hp2
  · rename_i ip port' e1 e2
    simp only [AddrPort.mk.injEq, Option.some.injEq] at hp2
    exact hp n vs ps hg p hm (by rw [e1, hp2.1])
  · simp at hp2

/-- C120: a response that names IPv6 peers only is an error. -/
theorem C120_only_violated (parseAddr : Bytes → Option Addr) (t t' : HttpTracker) (body : Bytes) (kvs : List (Bytes × Bencode)) (h : TopDict body kvs)
    (hn : lookupKey (ascii "peers") kvs = .nil) (ips : List AddrPort) : readPeers parseAddr t body ≠ (t', .ok ips) := by
  intro hok
  obtain ⟨n, vs, ps, hg, _⟩ := (C17_success_iff_partial parseAddr t t' body ips).1 hok
  obtain ⟨kvs', hd, _, _, ⟨p, raw, hl⟩, _⟩ := hg.dict
  obtain ⟨p1, r1, e1⟩ := h
  obtain ⟨p2, r2, e2⟩ := hd
  rw [e1] at e2
  simp only [PRes.ok.injEq, Bencode.dict.injEq] at e2
  rw [← e2.2.1, hn] at hl
  cases hl

/-! ## C121 -/

theorem readPeers_id (parseAddr : Bytes → Option Addr) (t : HttpTracker) (res : Bytes) :
    (readPeers parseAddr t res).1.trackerId = t.trackerId := by
  unfold readPeers
  split
  · rfl
  · rfl
  · simp only
    split
    · rfl
    · split
      · rfl
      · split <;> rfl

theorem httpAnnounce_id (parseAddr : Bytes → Option Addr) (t : HttpTracker) (r : HttpReply) :
    (httpAnnounce parseAddr t r).1.trackerId = t.trackerId := by
  unfold httpAnnounce
  split
  · rfl
  · split
    · rfl
    · exact readPeers_id _ _ _

theorem announceTries_id (parseAddr : Bytes → Option Addr) : ∀ (rs : List HttpReply) (t : HttpTracker),
    (announceTries parseAddr t rs).1.trackerId = t.trackerId := by
  intro rs
  induction rs with
  | nil => intro t; rfl
  | cons r rs ih =>
    intro t
    have h := httpAnnounce_id parseAddr t r
    unfold announceTries
    split
    · rename_i t' e he
      rw [he] at h
      split
      · exact h
      · exact (ih t').trans h
    · exact h

/-- The tracker id found in one request. -/
theorem announceUrl_id (clientId : Bytes) (t : HttpTracker) (hash : Bytes) (d : AnnounceData) (ht : ∀ c ∈ t.addr, c ≠ 63 ∧ c ≠ 35) :
    valuesIn (ascii "trackerid") (announceUrl clientId t hash d) = some [t.trackerId] := by
  obtain ⟨q, ps, h1, h2, h3⟩ := C22_params_partial clientId t hash d ht
  simp only [valuesIn, h1, h2, Option.map_some, Option.some.injEq]
  have h4 := (h3.filter (fun e => e.1 == ascii "trackerid")).map Prod.snd
  have : (([(ascii "info_hash", hash), (ascii "peer_id", clientId), (ascii "port", itoa d.port),
        (ascii "downloaded", itoa d.downloaded), (ascii "uploaded", itoa d.uploaded), (ascii "left", itoa d.left),
        (ascii "numwant", ascii "50"), (ascii "event", t.event), (ascii "trackerid", t.trackerId),
        (ascii "no_peer_id", ascii "1"), (ascii "compact", ascii "1")] : List (Bytes × Bytes)).filter
          (fun e => e.1 == ascii "trackerid")).map Prod.snd = [t.trackerId] := by
    simp only [List.filter_cons, List.filter_nil]
    simp [ascii]
  rw [this] at h4
  exact List.perm_singleton.1 h4

theorem announceUrls_id (parseAddr : Bytes → Option Addr) (clientId hash : Bytes) : ∀ (rs : List (AnnounceData × HttpReply)) (t : HttpTracker),
    (∀ c ∈ t.addr, c ≠ 63 ∧ c ≠ 35) → ∀ u ∈ announceUrls parseAddr clientId hash t rs, valuesIn (ascii "trackerid") u = some [t.trackerId] := by
  intro rs
  induction rs with
  | nil => intro t _ u hu; simp [announceUrls] at hu
  | cons x rs ih =>
    intro t ht u hu
    obtain ⟨d, r⟩ := x
    unfold announceUrls at hu
    rcases List.mem_cons.1 hu with rfl | hu
    · exact announceUrl_id clientId t hash d ht
    · have h := httpAnnounce_event parseAddr t r
      have h' := httpAnnounce_id parseAddr t r
      split at hu
      · rename_i t' e he
        rw [he] at h h'
        rw [← h']
        exact ih t' (by rw [h.2]; exact ht) u hu
      · cases hu

/-- C121, how it is: every request carries the id that was drawn when the tracker object was made, whatever the tracker answers. -/
theorem C121_always_partial (parseAddr : Bytes → Option Addr) (clientId hash addr trackerId : Bytes) (ht : ∀ c ∈ addr, c ≠ 63 ∧ c ≠ 35)
    (rounds : List (List (AnnounceData × HttpReply))) :
    ∀ urls ∈ runHttpUrls parseAddr clientId hash (newHttpTracker addr trackerId) rounds, ∀ u ∈ urls,
      valuesIn (ascii "trackerid") u = some [trackerId] := by
  have key : ∀ (rounds : List (List (AnnounceData × HttpReply))) (t : HttpTracker), (∀ c ∈ t.addr, c ≠ 63 ∧ c ≠ 35) →
      ∀ urls ∈ runHttpUrls parseAddr clientId hash t rounds, ∀ u ∈ urls, valuesIn (ascii "trackerid") u = some [t.trackerId] := by
    intro rounds
    induction rounds with
    | nil => intro t _ urls hu; simp [runHttpUrls] at hu
    | cons r rs ih =>
      intro t ht urls hu u hm
      unfold runHttpUrls at hu
      rcases List.mem_cons.1 hu with rfl | hu
      · exact announceUrls_id parseAddr clientId hash r t ht u hm
      · have h := announceTries_event parseAddr (r.map Prod.snd) t
        rw [← announceTries_id parseAddr (r.map Prod.snd) t]
        exact ih _ (by rw [h.2]; exact ht) urls hu u hm
  exact key rounds (newHttpTracker addr trackerId) ht

/-- C121 is violated by every tracker that sets an id other than the one the client made up. -/
theorem C121_violated (parseAddr : Bytes → Option Addr) (clientId hash addr trackerId : Bytes) (ht : ∀ c ∈ addr, c ≠ 63 ∧ c ≠ 35)
    (d1 d2 : AnnounceData) (r1 r2 : HttpReply) (id : Bytes) (hid : id ≠ trackerId) (hs : SetsId r1 id) :
    ¬ SendsBack (runHttpUrls parseAddr clientId hash (newHttpTracker addr trackerId) [[(d1, r1)], [(d2, r2)]]) r1 := by
  intro h
  obtain ⟨u, hu⟩ : ∃ u, (runHttpUrls parseAddr clientId hash (newHttpTracker addr trackerId) [[(d1, r1)], [(d2, r2)]])[1]? = some [u] := by
    simp only [runHttpUrls, List.getElem?_cons_succ, List.getElem?_cons_zero, Option.some.injEq]
    refine ⟨announceUrl clientId (announceTries parseAddr (newHttpTracker addr trackerId) [r1]).1 hash d2, ?_⟩
    simp only [announceUrls, List.map_cons, List.map_nil, List.cons.injEq, true_and]
    split <;> rfl
  have h1 := h id hs u hu
  rw [C121_always_partial parseAddr clientId hash addr trackerId ht _ _ (List.mem_of_getElem? hu) u (by simp)] at h1
  simp at h1
  exact hid h1.symm

/-! ## C122 -/

/-- C122, how it is: the time of the next request after a successful announce is determined by `interval` alone. -/
theorem C122_exact_partial (parseAddr : Bytes → Option Addr) (s : TrackerClock) (r : TimedReply) (body : Bytes) (n : Nat) (vs : List Bencode)
    (ps : List (Bytes × Bytes)) (hr : r.reply = .reply 200 body) (hg : GoodResponse body n vs ps) (hn : n ≤ 9223372036) :
    ∃ b, s.next parseAddr r = some b ∧ b.now = s.now + r.took + n * 1000000000 + r.slack := by
  have h := (C17_success_iff_partial parseAddr s.t _ body _).2 ⟨n, vs, ps, hg, rfl, rfl⟩
  refine ⟨⟨{ s.t with interval := wrap64 (n * 10 ^ 9) }, waitInterval (wrap64 (n * 10 ^ 9)) (s.now + r.took) r.slack, 0⟩, ?_, ?_⟩
  · rw [TrackerClock.next, hr, httpAnnounce_200, h]
  · simp only [waitInterval]
    rw [wrap64_small (by omega) (by omega)]
    omega

/-- C122 is violated: by every reply with a `min interval` above its `interval`, if timers are not too late. -/
theorem C122_violated (parseAddr : Bytes → Option Addr) (s : TrackerClock) (r : TimedReply) (body : Bytes) (n m : Nat) (vs : List Bencode)
    (ps : List (Bytes × Bytes)) (hr : r.reply = .reply 200 body) (hg : GoodResponse body n vs ps) (hn : n ≤ 9223372036) (hm : MinInterval r.reply m)
    (hlt : n < m) (hs : r.slack < 1000000000) : ¬ KeepsMin parseAddr s r := by
  intro h
  obtain ⟨b, h1, h2⟩ := C122_exact_partial parseAddr s r body n vs ps hr hg hn
  have := h m b hm h1
  omega

/-! ## Cases -/

/-- A response with an interval of 7 seconds, a minimum of 90, a tracker id, no IPv4 peers and one IPv6 peer. -/
def richBody : Bytes :=
  ascii "d8:intervali7e12:min intervali90e5:peersle6:peers618:" ++ [32, 1, 13, 184, 0, 0, 0, 0, 0, 0, 0, 0, 0, 0, 0, 1, 26, 225] ++
    ascii "10:tracker id3:abce"

/-- Its dictionary. -/
def richDict : List (Bytes × Bencode) :=
  [(ascii "interval", .int 7), (ascii "min interval", .int 90), (ascii "peers", .list true [] (ascii "le")),
   (ascii "peers6", .str [32, 1, 13, 184, 0, 0, 0, 0, 0, 0, 0, 0, 0, 0, 0, 1, 26, 225]), (ascii "tracker id", .str (ascii "abc"))]

theorem rich_dict : TopDict richBody richDict := by
  have h7 : Denotes (ascii "i7e") (.int 7) := denotes_int (ds := ascii "7") (isDigits_of_all (by decide)) (by decide)
  have h90 : Denotes (ascii "i90e") (.int 90) := denotes_int (ds := ascii "90") (isDigits_of_all (by decide)) (by decide)
  have hl : Denotes (ascii "le") (.list true [] (ascii "le")) := .list [] [] .nil
  have k12 : Denotes (ascii "12:min interval") (.str (ascii "min interval")) := .str (ascii "12") _ (isDigits_of_all (by decide)) (by decide)
  have k10 : Denotes (ascii "10:tracker id") (.str (ascii "tracker id")) := .str (ascii "10") _ (isDigits_of_all (by decide)) (by decide)
  have k18 : Denotes (ascii "18:" ++ [32, 1, 13, 184, 0, 0, 0, 0, 0, 0, 0, 0, 0, 0, 0, 1, 26, 225])
      (.str [32, 1, 13, 184, 0, 0, 0, 0, 0, 0, 0, 0, 0, 0, 0, 1, 26, 225]) := .str (ascii "18") _ (isDigits_of_all (by decide)) (by decide)
  have h := DenotesEntries.cons _ _ _ _ _ _ (denotes_a (ascii "interval") (by decide)) h7
    (.cons _ _ _ _ _ _ k12 h90
    (.cons _ _ _ _ _ _ (denotes_a (ascii "peers") (by decide)) hl
    (.cons _ _ _ _ _ _ (denotes_a (ascii "peers6") (by decide)) k18
    (.cons _ _ _ _ _ _ k10 (denotes_a (ascii "abc") (by decide)) .nil))))
  exact ⟨true, _, parse_complete (.dict _ _ h) []⟩

theorem rich_good : GoodResponse richBody 7 [] [] := by
  refine ⟨richDict, rich_dict, rfl, ?_, ⟨_, _, rfl⟩, rfl⟩
  have : lookupKey (ascii "interval") richDict = .int 7 := rfl
  rw [this]
  simp only [optInt, Bencode.isNil, Bencode.toText, prettyPrint, parseInt0_itoa _ 64 (by decide) (by decide)]
  rfl

theorem rich_good' : GoodResponse richBody ((7 : Nat) : Int) [] [] := rich_good

/-- The announce succeeds and finds nobody, although 2001:db8::1 was named. -/
example (parseAddr : Bytes → Option Addr) (t : HttpTracker) :
    readPeers parseAddr t richBody = ({ t with interval := wrap64 (7 * 10 ^ 9) }, .ok []) ∧ ¬ Uses6 parseAddr t richBody := by
  refine ⟨(C17_success_iff_partial parseAddr t _ _ _).2 ⟨7, [], [], rich_good, rfl, rfl⟩, ?_⟩
  obtain ⟨p, raw, e⟩ := rich_dict
  refine C120_violated parseAddr t richBody [32, 1, 13, 184, 0, 0, 0, 0, 0, 0, 0, 0, 0, 0, 0, 1] 6881
    ⟨p, richDict, raw, [], [], e, rfl, by omega, rfl, rfl, rfl⟩ ?_
  rintro n vs ps ⟨k, ⟨p', raw', e'⟩, _, _, ⟨_, _, h1⟩, h2⟩ q hq
  rw [e] at e'
  simp only [PRes.ok.injEq, Bencode.dict.injEq] at e'
  rw [← e'.2.1] at h1
  have : vs = [] := by
    have h3 : lookupKey (ascii "peers") richDict = .list true [] (ascii "le") := rfl
    rw [h3] at h1
    simp only [Bencode.list.injEq] at h1
    exact h1.2.1.symm
  subst this
  simp only [peerTexts, Option.some.injEq] at h2
  subst h2
  cases hq

/-- It is read like the reply without the other keys. -/
example (parseAddr : Bytes → Option Addr) (t t' : HttpTracker) (ips : List AddrPort) :
    readPeers parseAddr t richBody = (t', .ok ips) ↔ readPeers parseAddr t (ascii "d8:intervali7e5:peerslee") = (t', .ok ips) := by
  obtain ⟨k, hk, h1, h2, ⟨_, _, h3⟩, h4⟩ := peersBody_good.dict
  have h7 : Denotes (ascii "i7e") (.int 7) := denotes_int (ds := ascii "7") (isDigits_of_all (by decide)) (by decide)
  have hl : Denotes (ascii "le") (.list true [] (ascii "le")) := .list [] [] .nil
  have h := DenotesEntries.cons _ _ _ _ _ _ (denotes_a (ascii "interval") (by decide)) h7
    (.cons _ _ _ _ _ _ (denotes_a (ascii "peers") (by decide)) hl .nil)
  exact C120_ignored_partial parseAddr t t' _ _ _ _ rich_dict ⟨true, _, parse_complete (.dict _ _ h) []⟩
    (by rintro x (rfl | rfl | rfl) <;> rfl) ips

/-- A response without IPv4 peers. -/
example (parseAddr : Bytes → Option Addr) (t t' : HttpTracker) (ips : List AddrPort) : readPeers parseAddr t (ascii "d6:peers60:e") ≠ (t', .ok ips) := by
  have h := DenotesEntries.cons _ _ _ _ _ _ (denotes_a (ascii "peers6") (by decide)) (denotes_a [] (by decide)) .nil
  exact C120_only_violated parseAddr t t' _ [(ascii "peers6", .str [])] ⟨true, _, parse_complete (.dict _ _ h) []⟩ rfl ips

/-- The id `abc` is not sent back. -/
example (parseAddr : Bytes → Option Addr) (clientId hash : Bytes) (d1 d2 : AnnounceData) (r2 : HttpReply) :
    ¬ SendsBack (runHttpUrls parseAddr clientId hash (newHttpTracker (ascii "http://t/announce") (ascii "uuid"))
      [[(d1, .reply 200 richBody)], [(d2, r2)]]) (.reply 200 richBody) := by
  obtain ⟨p, raw, e⟩ := rich_dict
  exact C121_violated parseAddr clientId hash _ _ (by decide) d1 d2 _ r2 (ascii "abc") (by decide) ⟨_, p, richDict, raw, rfl, e, rfl⟩

/-- The next request comes after 7 seconds instead of 90. -/
example (parseAddr : Bytes → Option Addr) (s : TrackerClock) :
    ¬ KeepsMin parseAddr s ⟨.reply 200 richBody, 30, 5⟩ ∧
    ∃ b, s.next parseAddr ⟨.reply 200 richBody, 30, 5⟩ = some b ∧ b.now = s.now + 30 + 7 * 1000000000 + 5 := by
  obtain ⟨p, raw, e⟩ := rich_dict
  refine ⟨C122_violated parseAddr s _ richBody 7 90 [] [] rfl rich_good' (by omega) ⟨_, p, richDict, raw, rfl, e, rfl⟩ (by omega) (by simp), ?_⟩
  obtain ⟨b, h1, h2⟩ := C122_exact_partial parseAddr s ⟨.reply 200 richBody, 30, 5⟩ richBody 7 [] [] rfl rich_good' (by omega)
  exact ⟨b, h1, h2⟩

end Gotit.Props
