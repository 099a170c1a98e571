import Verif.Lemmas.HttpTracker
import Verif.Lemmas.Query
import Verif.Props.Unmarshal
/-
  Properties C17–C22: HTTP trackers.
-/
namespace Gotit.Props
open Gotit Gotit.Spec

/-! ## C17 -/

theorem httpAnnounce_200 (parseAddr : Bytes → Option Addr) (t : HttpTracker) (body : Bytes) :
    httpAnnounce parseAddr t (.reply 200 body) = readPeers parseAddr t body := by simp [httpAnnounce]

/-- What a response must look like for `readPeers` to return peers. -/
structure GoodResponse (body : Bytes) (n : Int) (vs : List Bencode) (ps : List (Bytes × Bytes)) : Prop where
  /-- it is a dictionary -/
  dict : ∃ kvs, TopDict body kvs ∧
    -- without (non-empty) failure reason
    optText (lookupKey (ascii "failure reason") kvs) = [] ∧
    -- its interval, if any, is the number `n`
    optInt (lookupKey (ascii "interval") kvs) = .ok n ∧
    -- its peers are a *list* whose entries are dictionaries with ip and port
    (∃ p raw, lookupKey (ascii "peers") kvs = .list p vs raw) ∧ peerTexts vs = some ps

/-- The address a peer entry stands for. -/
def peerAddr (parseAddr : Bytes → Option Addr) (p : Bytes × Bytes) : AddrPort :=
  match parseAddr p.1, portNumber p.2 with
  | some ip, some port => ⟨some ip, port⟩
  | _, _ => ⟨none, 0⟩

theorem parseBencodePeer_eq (parseAddr : Bytes → Option Addr) (p : Bytes × Bytes) :
    parseBencodePeer parseAddr (.struct [.string p.1, .string p.2]) = peerAddr parseAddr p := by
  unfold parseBencodePeer peerAddr
  have h0 : ((GoVal.struct [.string p.1, .string p.2]).field 0).asString = p.1 := rfl
  have h1 : ((GoVal.struct [.string p.1, .string p.2]).field 1).asString = p.2 := rfl
  rw [h0, h1]
  cases parseAddr p.1 with
  | none => rfl
  | some ip =>
    simp only
    cases hp : portNumber p.2 with
    | some n => rw [(parseUint10_port _ _).2 hp]
    | none =>
      cases hu : parseUint10 p.2 16 with
      | error e => rfl
      | ok n => rw [(parseUint10_port _ _).1 hu] at hp; simp at hp

theorem readPeers_dict (parseAddr : Bytes → Option Addr) (t : HttpTracker) (body : Bytes)
    (kvs : List (Bytes × Bencode)) (hd : TopDict body kvs) :
    (∃ n vs ps, GoodResponse body n vs ps ∧
      readPeers parseAddr t body =
        ({ t with interval := wrap64 (n * 10 ^ 9) }, .ok (ps.map (peerAddr parseAddr)))) ∨
    ((∀ n vs ps, ¬ GoodResponse body n vs ps) ∧ ∃ t' e, readPeers parseAddr t body = (t', .err e) ∧
      (t' = t ∨ (optText (lookupKey (ascii "failure reason") kvs) = [] ∧
        ∃ n, optInt (lookupKey (ascii "interval") kvs) = .ok n ∧ lookupKey (ascii "peers") kvs = .nil ∧
          t' = { t with interval := wrap64 (n * 10 ^ 9) }))) := by
  obtain ⟨p, raw, hu⟩ := unmarshal_dict (fs := announceResponseFields) (olds := zeros announceResponseFields) hd
  have hbad : ∀ P : Prop, (∀ n vs ps, optText (lookupKey (ascii "failure reason") kvs) = [] →
      optInt (lookupKey (ascii "interval") kvs) = .ok n →
      (∃ p raw, lookupKey (ascii "peers") kvs = .list p vs raw) → peerTexts vs = some ps → False) →
      ∀ n vs ps, ¬ GoodResponse body n vs ps := by
    intro _ h n vs ps ⟨kvs', hd', h1, h2, h3, h4⟩
    obtain ⟨p1, r1, e1⟩ := hd
    obtain ⟨p2, r2, e2⟩ := hd'
    rw [e1] at e2
    simp only [PRes.ok.injEq, Bencode.dict.injEq] at e2
    rw [← e2.2.1] at h1 h2 h3
    exact h n vs ps h1 h2 h3 h4
  unfold readPeers
  rw [hu]
  have hcase := unmarshal_response p kvs raw
  simp only at hcase
  rcases hcase with ⟨e, he⟩ | ⟨n, hok, hi, h0, h1, h2⟩
  · right
    rw [he]
    refine ⟨hbad True ?_, t, e, rfl, .inl rfl⟩
    intro n vs ps h1 h2 ⟨p', r', h3⟩ h4
    rw [unmarshal_response_ok p kvs raw n h2 (.inr ⟨p', vs, r', ps, h3, h4⟩)] at he
    simp at he
  · rw [hok]
    simp only
    have hf : ∀ i, (GoVal.ptr (some (.struct (setFields announceResponseFields (zeros announceResponseFields)
        (.dict p kvs raw)).1))).field i = (GoVal.struct (setFields announceResponseFields (zeros announceResponseFields)
        (.dict p kvs raw)).1).field i := fun i => rfl
    rw [hf, hf, hf, hf]
    have h0' : ((GoVal.struct (setFields announceResponseFields (zeros announceResponseFields)
        (.dict p kvs raw)).1).field 0).asString = optText (lookupKey (ascii "failure reason") kvs) := by rw [h0]; rfl
    by_cases hfail : optText (lookupKey (ascii "failure reason") kvs) = []
    · rw [if_neg (by rw [h0']; simp [hfail]), h1]
      simp only [GoVal.asInt]
      rcases h2 with ⟨h2, h3, h4⟩ | ⟨p', vs, r', ps, h2, h3, h4⟩
      · right
        rw [h3, h4]
        refine ⟨hbad True ?_, _, _, rfl, .inr ⟨hfail, n, hi, h2, rfl⟩⟩
        intro n vs ps _ _ ⟨p', r', h5⟩
        rw [h2] at h5; simp at h5
      · left
        refine ⟨n, vs, ps, ⟨kvs, hd, hfail, hi, ⟨p', r', h2⟩, h3⟩, ?_⟩
        rw [h4]
        simp only [GoVal.asSlice?, parseBencodePeers, List.map_map]
        have : (parseBencodePeer parseAddr ∘ fun p : Bytes × Bytes => GoVal.struct [.string p.1, .string p.2]) =
            peerAddr parseAddr := funext fun p => parseBencodePeer_eq parseAddr p
        rw [this]
    · right
      rw [if_pos (by rw [h0']; exact hfail)]
      refine ⟨hbad True ?_, t, _, rfl, .inl rfl⟩
      intro n vs ps h1 _ _ _; exact hfail h1

/-- C17, exact: `readPeers` succeeds exactly on the dictionary-form responses; the result is one address per entry and
the interval is taken from the response. Compact responses are not among them. -/
theorem C17_success_iff_partial (parseAddr : Bytes → Option Addr) (t t' : HttpTracker) (body : Bytes)
    (ips : List AddrPort) :
    readPeers parseAddr t body = (t', .ok ips) ↔
      ∃ n vs ps, GoodResponse body n vs ps ∧ ips = ps.map (peerAddr parseAddr) ∧
        t' = { t with interval := wrap64 (n * 10 ^ 9) } := by
  constructor
  · intro h
    have hdict : ∃ kvs, TopDict body kvs := by
      match hp : parse body with
      | .ok v =>
        refine Classical.byContradiction fun hn => ?_
        have hv' : ∀ p kvs raw, v ≠ .dict p kvs raw := fun p kvs raw e => hn ⟨kvs, p, raw, e ▸ hp⟩
        have := (setFields_nonDict announceResponseFields v hv' (zeros announceResponseFields)).2
          ⟨fld "Failure" "failure reason,optional" .string, by simp [announceResponseFields], by simp [Active, fld, ascii]⟩
        simp only [readPeers, unmarshal, hp, processTarget] at h
        cases ho : (setFields announceResponseFields (zeros announceResponseFields) v).2 with
        | panic w => rw [ho] at h; simp at h
        | ok => rw [ho] at this; simp [Outcome.isPanic] at this
        | err e => rw [ho] at this; simp [Outcome.isPanic] at this
      | .err e => simp [readPeers, unmarshal, hp] at h
      | .panic w => simp [readPeers, unmarshal, hp] at h
      | .outOfFuel => exact absurd hp (parse_not_fuel body)
    obtain ⟨kvs, hd⟩ := hdict
    rcases readPeers_dict parseAddr t body kvs hd with ⟨n, vs, ps, hg, hr⟩ | ⟨_, t'', e, hr, _⟩
    · rw [h] at hr
      simp only [Prod.mk.injEq, Res.ok.injEq] at hr
      exact ⟨n, vs, ps, hg, hr.2, hr.1⟩
    · rw [h] at hr; simp at hr
  · rintro ⟨n, vs, ps, hg, rfl, rfl⟩
    obtain ⟨kvs, hd, _, hi, ⟨p, r, hl⟩, hps⟩ := hg.dict
    rcases readPeers_dict parseAddr t body kvs hd with ⟨n', vs', ps', hg', hr⟩ | ⟨hno, _⟩
    · obtain ⟨kvs', hd', _, hi', ⟨p', r', hl'⟩, hps'⟩ := hg'.dict
      obtain ⟨p1, r1, e1⟩ := hd
      obtain ⟨p2, r2, e2⟩ := hd'
      rw [e1] at e2
      simp only [PRes.ok.injEq, Bencode.dict.injEq] at e2
      rw [← e2.2.1] at hi' hl'
      rw [hi] at hi'
      rw [hl] at hl'
      simp only [Except.ok.injEq] at hi'
      simp only [Bencode.list.injEq] at hl'
      rw [← hl'.2.1, hps] at hps'
      simp only [Option.some.injEq] at hps'
      rw [hr, hi', hps']
    · exact absurd hg (hno n vs ps)

/-- C17 is false of the code: *every* response dictionary whose peers are a byte string (the compact form the client
asks for) makes the announce fail. -/
theorem C17_compact_violated (parseAddr : Bytes → Option Addr) (t : HttpTracker) (body : Bytes)
    (kvs : List (Bytes × Bencode)) (hd : TopDict body kvs) (s : Bytes) (hs : lookupKey (ascii "peers") kvs = .str s) :
    ∃ e, httpAnnounce parseAddr t (.reply 200 body) = (t, .err e) := by
  rw [httpAnnounce_200]
  rcases readPeers_dict parseAddr t body kvs hd with ⟨n', vs', ps', hg', _⟩ | ⟨_, t', e, hr, h | ⟨_, _, _, h, _⟩⟩
  · obtain ⟨kvs', hd', _, _, ⟨p', r', hl'⟩, _⟩ := hg'.dict
    obtain ⟨p1, r1, e1⟩ := hd
    obtain ⟨p2, r2, e2⟩ := hd'
    rw [e1] at e2
    simp only [PRes.ok.injEq, Bencode.dict.injEq] at e2
    rw [← e2.2.1, hs] at hl'
    simp at hl'
  · exact ⟨e, h ▸ hr⟩
  · rw [hs] at h; simp at h

/-- A compact response with the peer 1.2.3.4:5 (and what `Announce` should return for it but does not). -/
theorem compactBody_dict : TopDict (ascii "d5:peers6:\x01\x02\x03\x04\x00\x05e")
    [(ascii "peers", .str [1, 2, 3, 4, 0, 5])] := by
  have h := DenotesEntries.cons _ _ _ _ _ _ (denotes_a (ascii "peers") (by decide))
    (denotes_a [1, 2, 3, 4, 0, 5] (by decide)) .nil
  exact ⟨true, _, parse_complete (.dict _ _ h) []⟩

example (parseAddr : Bytes → Option Addr) (t : HttpTracker) :
    ∃ e, httpAnnounce parseAddr t (.reply 200 (ascii "d5:peers6:\x01\x02\x03\x04\x00\x05e")) = (t, .err e) :=
  C17_compact_violated parseAddr t _ _ compactBody_dict [1, 2, 3, 4, 0, 5] rfl

/-! ## C18 -/

/-- C18, what holds: on success there is one address per entry, in order; entry `i` is the parsed address exactly
when its ip parses and its port is a decimal number below 65536. Missing: other entries yield the *invalid* zero
address instead of being dropped. -/
theorem C18_entries_partial (parseAddr : Bytes → Option Addr) (t t' : HttpTracker) (body : Bytes)
    (kvs : List (Bytes × Bencode)) (hd : TopDict body kvs) (p : Bool) (vs : List Bencode) (raw : Bytes)
    (hl : lookupKey (ascii "peers") kvs = .list p vs raw) (ips : List AddrPort)
    (h : httpAnnounce parseAddr t (.reply 200 body) = (t', .ok ips)) :
    ips.length = vs.length ∧
    ∀ (i : Nat) v, vs[i]? = some v → ∃ ip port, peerText v = some (ip, port) ∧ ∃ a : AddrPort, ips[i]? = some a ∧
      (a.isValid = true ↔ ∃ x n, parseAddr ip = some x ∧ portNumber port = some n) ∧
      (∀ x n, parseAddr ip = some x → portNumber port = some n → a = ⟨some x, n⟩) := by
  rw [httpAnnounce_200] at h
  obtain ⟨n, vs', ps, hg, rfl, _⟩ := (C17_success_iff_partial parseAddr t t' body ips).1 h
  obtain ⟨kvs', hd', _, _, ⟨p', r', hl'⟩, hps⟩ := hg.dict
  obtain ⟨p1, r1, e1⟩ := hd
  obtain ⟨p2, r2, e2⟩ := hd'
  rw [e1] at e2
  simp only [PRes.ok.injEq, Bencode.dict.injEq] at e2
  rw [← e2.2.1, hl] at hl'
  simp only [Bencode.list.injEq] at hl'
  obtain ⟨_, rfl, _⟩ := hl'
  clear hl e1 e2 hg h
  have key : ∀ (vs : List Bencode) (ps : List (Bytes × Bytes)), peerTexts vs = some ps →
      ps.length = vs.length ∧ ∀ (i : Nat) v, vs[i]? = some v → ∃ q, peerText v = some q ∧ ps[i]? = some q := by
    intro vs
    induction vs with
    | nil => intro ps h; simp [peerTexts] at h; subst h; simp
    | cons v vs ih =>
      intro ps h
      rw [peerTexts] at h
      split at h
      · rename_i q qs h1 h2
        simp only [Option.some.injEq] at h
        subst h
        obtain ⟨h3, h4⟩ := ih qs h2
        refine ⟨by simp [h3], ?_⟩
        intro i w hw
        cases i with
        | zero => simp only [List.getElem?_cons_zero, Option.some.injEq] at hw; subst hw; exact ⟨q, h1, rfl⟩
        | succ i => exact h4 i w (by simpa using hw)
      · simp at h
  obtain ⟨h1, h2⟩ := key vs ps hps
  refine ⟨by simp [h1], ?_⟩
  intro i v hv
  obtain ⟨q, h3, h4⟩ := h2 i v hv
  refine ⟨q.1, q.2, h3, peerAddr parseAddr q, by simp [h4], ?_, ?_⟩
  · simp only [peerAddr]
    cases parseAddr q.1 <;> cases portNumber q.2 <;> simp [AddrPort.isValid]
  · intro x n hx hn
    simp [peerAddr, hx, hn]

/-- The response `d5:peersld2:ip1:x4:port1:5eee`. -/
theorem badIpBody_dict : TopDict (ascii "d5:peersld2:ip1:x4:port1:5eee")
    [(ascii "peers", .list true [.dict true [(ascii "ip", .str (ascii "x")), (ascii "port", .str (ascii "5"))]
      (ascii "d2:ip1:x4:port1:5e")] (ascii "ld2:ip1:x4:port1:5ee"))] := by
  have hi := DenotesEntries.cons _ _ _ _ _ _ (denotes_a (ascii "ip") (by decide)) (denotes_a (ascii "x") (by decide))
    (.cons _ _ _ _ _ _ (denotes_a (ascii "port") (by decide)) (denotes_a (ascii "5") (by decide)) .nil)
  have hl := DenotesSeq.cons _ _ _ _ (Denotes.dict _ _ hi) .nil
  have h := DenotesEntries.cons _ _ _ _ _ _ (denotes_a (ascii "peers") (by decide)) (Denotes.list _ _ hl) .nil
  exact ⟨true, _, parse_complete (.dict _ _ h) []⟩

theorem badIpBody_good : GoodResponse (ascii "d5:peersld2:ip1:x4:port1:5eee") 0
    [.dict true [(ascii "ip", .str (ascii "x")), (ascii "port", .str (ascii "5"))] (ascii "d2:ip1:x4:port1:5e")]
    [(ascii "x", ascii "5")] :=
  ⟨_, badIpBody_dict, rfl, rfl, ⟨_, _, rfl⟩, by decide⟩

/-- C18 is false of the code: an entry whose ip does not parse yields an invalid address (which the manager then turns
into a peer). -/
theorem C18_all_valid_violated (parseAddr : Bytes → Option Addr) (hx : parseAddr (ascii "x") = none) (t : HttpTracker) :
    ∃ body t', httpAnnounce parseAddr t (.reply 200 body) = (t', .ok [⟨none, 0⟩]) := by
  refine ⟨ascii "d5:peersld2:ip1:x4:port1:5eee", { t with interval := wrap64 (0 * 10 ^ 9) }, ?_⟩
  rw [httpAnnounce_200]
  refine (C17_success_iff_partial parseAddr t _ _ _).2 ⟨_, _, _, badIpBody_good, ?_, rfl⟩
  simp [peerAddr, hx]

/-- The same entry with a parsable ip is returned as a valid address. -/
example (t : HttpTracker) : ∃ t', httpAnnounce (fun _ => some (.v4 1 2 3 4)) t
    (.reply 200 (ascii "d5:peersld2:ip1:x4:port1:5eee")) = (t', .ok [⟨some (.v4 1 2 3 4), 5⟩]) :=
  ⟨_, (C17_success_iff_partial _ t _ _ _).2 ⟨_, _, _, badIpBody_good, by
    simp [peerAddr, show portNumber (ascii "5") = some 5 from by decide], rfl⟩⟩

/-! ## C19 -/

/-- C19: decoding the compact form gives back exactly the peers; trailing bytes (fewer than 6) are ignored. -/
theorem C19_compact (peers : List (UInt8 × UInt8 × UInt8 × UInt8 × Nat)) (hport : ∀ p ∈ peers, p.2.2.2.2 < 65536)
    (tail : Bytes) (htail : tail.length < 6) :
    parseCompactPeers (peers.flatMap (fun (a, b, c, d, port) => compactEntry a b c d port) ++ tail) =
      peers.map (fun (a, b, c, d, port) => ⟨some (.v4 a b c d), port⟩) := by
  induction peers with
  | nil => exact compact_short tail htail
  | cons p peers ih =>
    obtain ⟨a, b, c, d, port⟩ := p
    have hp : port < 65536 := hport _ List.mem_cons_self
    have := ih (fun p h => hport p (List.mem_cons_of_mem _ h))
    simp only [List.flatMap_cons, compactEntry, List.cons_append, List.nil_append, List.map_cons, List.append_assoc]
    simp only [compactEntry] at this
    rw [compact_cons, this]
    congr 2
    rw [UInt8.toNat_ofNat', UInt8.toNat_ofNat']
    omega

/-- C19: every byte string decodes (whatever its length) to `length / 6` valid addresses. -/
theorem C19_valid (bs : Bytes) : (parseCompactPeers bs).length = bs.length / 6 ∧
    ∀ a ∈ parseCompactPeers bs, a.isValid = true ∧ a.port < 65536 := by
  refine ⟨by simp [parseCompactPeers], ?_⟩
  intro a ha
  simp only [parseCompactPeers, List.mem_map, List.mem_range] at ha
  obtain ⟨i, hi, rfl⟩ := ha
  refine ⟨rfl, ?_⟩
  simp only [compactPeer]
  have hl : ((bs.drop (6 * i + 4)).take 2).length ≤ 2 := by simp [List.length_take]; omega
  generalize (bs.drop (6 * i + 4)).take 2 = l at hl
  match l, hl with
  | [], _ => simp [getBE]
  | [x], _ => have := UInt8.toNat_lt x; simp [getBE]; omega
  | [x, y], _ => have := UInt8.toNat_lt x; have := UInt8.toNat_lt y; simp [getBE]; omega
  | x :: y :: z :: l, h => simp at h

example : parseCompactPeers [1, 2, 3, 4, 0x1a, 0xe1, 9, 9] = [⟨some (.v4 1 2 3 4), 6881⟩] := by decide

/-! ## C20 -/

/-- C20: a non-empty failure reason is always an error, and the tracker keeps its interval. -/
theorem C20_failure (parseAddr : Bytes → Option Addr) (t : HttpTracker) (body : Bytes)
    (kvs : List (Bytes × Bencode)) (hd : TopDict body kvs) (s : Bytes) (hs : s ≠ [])
    (hf : lookupKey (ascii "failure reason") kvs = .str s) :
    ∃ e, httpAnnounce parseAddr t (.reply 200 body) = (t, .err e) := by
  rw [httpAnnounce_200]
  have ht : optText (lookupKey (ascii "failure reason") kvs) ≠ [] := by
    rw [hf]; simpa [optText, Bencode.isNil, Bencode.toText, prettyPrint] using hs
  rcases readPeers_dict parseAddr t body kvs hd with ⟨n', vs', ps', hg', _⟩ | ⟨_, t', e, hr, h | ⟨h, _⟩⟩
  · obtain ⟨kvs', hd', h0, _⟩ := hg'.dict
    obtain ⟨p1, r1, e1⟩ := hd
    obtain ⟨p2, r2, e2⟩ := hd'
    rw [e1] at e2
    simp only [PRes.ok.injEq, Bencode.dict.injEq] at e2
    rw [← e2.2.1] at h0
    exact absurd h0 ht
  · exact ⟨e, h ▸ hr⟩
  · exact absurd h ht

/-- So is every status other than 200, and every transport error. -/
theorem C20_status (parseAddr : Bytes → Option Addr) (t : HttpTracker) (status : Int) (body : Bytes) (h : status ≠ 200) :
    ∃ e, httpAnnounce parseAddr t (.reply status body) = (t, .err e) := by
  simp [httpAnnounce, h]

example (parseAddr : Bytes → Option Addr) (t : HttpTracker) :
    ∃ e, httpAnnounce parseAddr t (.reply 200 (ascii "d14:failure reason3:bade")) = (t, .err e) := by
  have hk : Denotes (ascii "14:failure reason") (.str (ascii "failure reason")) :=
    .str (ascii "14") (ascii "failure reason") (isDigits_of_all (by decide)) (by decide)
  have h := DenotesEntries.cons _ _ _ _ _ _ hk (denotes_a (ascii "bad") (by decide)) .nil
  exact C20_failure parseAddr t _ [(ascii "failure reason", .str (ascii "bad"))] ⟨true, _, parse_complete (.dict _ _ h) []⟩
    (ascii "bad") (by decide) rfl

/-! ## C21 -/

theorem wrap64_small {x : Int} (h1 : 0 ≤ x) (h2 : x < 2 ^ 63) : wrap64 x = x := by
  unfold wrap64
  rw [Int.bmod_eq_of_le (by omega) (by omega)]

theorem announceTries_ok (parseAddr : Bytes → Option Addr) (replies : List HttpReply) :
    ∀ (t t' : HttpTracker) (ips : List AddrPort), announceTries parseAddr t replies = (t', .ok ips) →
    ∃ t0 body, HttpReply.reply 200 body ∈ replies ∧ readPeers parseAddr t0 body = (t', .ok ips) := by
  induction replies with
  | nil => intro t t' ips h; simp [announceTries] at h
  | cons r rs ih =>
    intro t t' ips h
    rw [announceTries] at h
    split at h
    · split at h
      · simp at h
      · obtain ⟨t0, body, h1, h2⟩ := ih _ _ _ h
        exact ⟨t0, body, List.mem_cons_of_mem _ h1, h2⟩
    · cases r with
      | fail e => simp [httpAnnounce] at h
      | reply s b =>
        simp only [httpAnnounce] at h
        split at h
        · simp at h
        · rename_i hs
          simp only [ne_eq, Decidable.not_not] at hs
          subst hs
          exact ⟨t, b, List.mem_cons_self, h⟩

/-- C21, what holds: in every announce history, after a successful announce whose response carries an interval of
`n` seconds, `0 ≤ n ≤ 9223372036`, the next announce starts no earlier than `n` seconds after it. Missing: responses
without interval, and larger numbers. -/
theorem C21_wait_partial (parseAddr : Bytes → Option Addr) (rs : List Round) :
    ∀ (t : HttpTracker) (now : Nat) (i : Nat) (r : Round), rs[i]? = some r →
    ∀ start done ips start' rest,
    (runHttpTracker parseAddr t now rs)[i]? = some (start, done, .ok ips) →
    (runHttpTracker parseAddr t now rs)[i+1]? = some (start', rest) →
    ∃ body kvs, HttpReply.reply 200 body ∈ r.replies ∧ TopDict body kvs ∧
      ∀ n : Nat, lookupKey (ascii "interval") kvs = .int n → n ≤ 9223372036 → done + n * 10 ^ 9 ≤ start' := by
  induction rs with
  | nil => intro t now i r h; simp at h
  | cons r rs ih =>
    intro t now i r' hr start done ips start' rest h1 h2
    rw [runHttpTracker] at h1 h2
    cases i with
    | succ i =>
      exact ih _ _ i r' (by simpa using hr) start done ips start' rest (by simpa using h1) (by simpa using h2)
    | zero =>
      simp only [List.getElem?_cons_zero, Option.some.injEq, Prod.mk.injEq] at hr h1
      subst hr
      obtain ⟨rfl, rfl, hok⟩ := h1
      simp only [Nat.zero_add, List.getElem?_cons_succ] at h2
      have hst : start' = waitInterval (announceTries parseAddr t r.replies).1.interval (now + r.took) r.slack := by
        cases rs with
        | nil => simp [runHttpTracker] at h2
        | cons r2 rs =>
          rw [runHttpTracker] at h2
          simp only [List.getElem?_cons_zero, Option.some.injEq, Prod.mk.injEq] at h2
          exact h2.1.symm
      obtain ⟨t0, body, hmem, hrp⟩ := announceTries_ok parseAddr r.replies t _ ips (Prod.ext rfl hok)
      obtain ⟨n, vs, ps, hg, _, ht⟩ := (C17_success_iff_partial parseAddr t0 _ body ips).1 hrp
      obtain ⟨kvs, hd, _, hi, _⟩ := hg.dict
      refine ⟨body, kvs, hmem, hd, ?_⟩
      intro m hm hle
      rw [hm] at hi
      simp only [optInt, Bencode.isNil, Bencode.toText, prettyPrint, parseInt0_itoa _ 64 (by decide) (by decide)] at hi
      rw [if_neg (by simp), if_pos (by constructor <;> omega)] at hi
      simp only [Except.ok.injEq] at hi
      subst hi
      rw [hst]
      rw [show (announceTries parseAddr t r.replies).1 = _ from ht]
      simp only [waitInterval]
      rw [wrap64_small (by omega) (by omega)]
      omega

/-- Non-vacuous: two rounds, the first answered with an interval of 7 seconds. -/
theorem peersBody_good : GoodResponse (ascii "d8:intervali7e5:peerslee") 7 [] [] := by
  have h7 : Denotes (ascii "i7e") (.int 7) := denotes_int (ds := ascii "7") (isDigits_of_all (by decide)) (by decide)
  have hl : Denotes (ascii "le") (.list true [] (ascii "le")) := .list [] [] .nil
  have h := DenotesEntries.cons _ _ _ _ _ _ (denotes_a (ascii "interval") (by decide)) h7
    (.cons _ _ _ _ _ _ (denotes_a (ascii "peers") (by decide)) hl .nil)
  refine ⟨[(ascii "interval", .int 7), (ascii "peers", .list true [] (ascii "le"))],
    ⟨true, _, parse_complete (.dict _ _ h) []⟩, rfl, ?_, ⟨_, _, rfl⟩, rfl⟩
  have : lookupKey (ascii "interval") [(ascii "interval", .int 7), (ascii "peers", .list true [] (ascii "le"))] = .int 7 := rfl
  rw [this]
  simp only [optInt, Bencode.isNil, Bencode.toText, prettyPrint, parseInt0_itoa _ 64 (by decide) (by decide)]
  rfl

example (t : HttpTracker) (parseAddr : Bytes → Option Addr) :
    (runHttpTracker parseAddr t 0 [⟨[.reply 200 (ascii "d8:intervali7e5:peerslee")], 5, 1⟩, ⟨[], 0, 0⟩])[1]? =
      some (7000000006, 7000000006, .err "no attempt") := by
  have h : readPeers parseAddr t (ascii "d8:intervali7e5:peerslee") = ({ t with interval := wrap64 (7 * 10 ^ 9) }, .ok []) :=
    (C17_success_iff_partial parseAddr t _ _ _).2 ⟨7, _, _, peersBody_good, rfl, rfl⟩
  simp [runHttpTracker, announceTries, httpAnnounce, h, waitInterval, wrap64_small]

/-- A successful response without interval. -/
theorem noInterval_good : GoodResponse (ascii "d5:peerslee") 0 [] [] := by
  have hl : Denotes (ascii "le") (.list true [] (ascii "le")) := .list [] [] .nil
  have h := DenotesEntries.cons _ _ _ _ _ _ (denotes_a (ascii "peers") (by decide)) hl .nil
  exact ⟨[(ascii "peers", .list true [] (ascii "le"))],
    ⟨true, _, parse_complete (.dict _ _ h) []⟩, rfl, rfl, ⟨_, _, rfl⟩, rfl⟩

/-- A successful response with an interval of 9223372037 seconds. -/
theorem hugeInterval_good : GoodResponse (ascii "d8:intervali9223372037e5:peerslee") 9223372037 [] [] ∧
    TopDict (ascii "d8:intervali9223372037e5:peerslee")
      [(ascii "interval", .int 9223372037), (ascii "peers", .list true [] (ascii "le"))] := by
  have h7 : Denotes (ascii "i9223372037e") (.int 9223372037) :=
    denotes_int (ds := ascii "9223372037") (isDigits_of_all (by decide)) (by decide)
  have hl : Denotes (ascii "le") (.list true [] (ascii "le")) := .list [] [] .nil
  have h := DenotesEntries.cons _ _ _ _ _ _ (denotes_a (ascii "interval") (by decide)) h7
    (.cons _ _ _ _ _ _ (denotes_a (ascii "peers") (by decide)) hl .nil)
  have hd : TopDict (ascii "d8:intervali9223372037e5:peerslee")
      [(ascii "interval", .int 9223372037), (ascii "peers", .list true [] (ascii "le"))] :=
    ⟨true, _, parse_complete (.dict _ _ h) []⟩
  refine ⟨⟨_, hd, rfl, ?_, ⟨_, _, rfl⟩, rfl⟩, hd⟩
  have : lookupKey (ascii "interval") [(ascii "interval", .int 9223372037), (ascii "peers", .list true [] (ascii "le"))] =
    .int 9223372037 := rfl
  rw [this]
  simp only [optInt, Bencode.isNil, Bencode.toText, prettyPrint, parseInt0_itoa _ 64 (by decide) (by decide)]
  rfl

/-- C21 is false of the code, in both ways: without an interval the next announce starts at once, and an interval of
9223372037 seconds is not waited for either. -/
theorem C21_wait_violated (parseAddr : Bytes → Option Addr) (t : HttpTracker) (now : Nat) :
    (∃ r r' : Round, (runHttpTracker parseAddr t now [r, r'])[0]? = some (now, now, .ok []) ∧
      (runHttpTracker parseAddr t now [r, r'])[1]?.map (·.1) = some now) ∧
    (∃ (body : Bytes) (kvs : List (Bytes × Bencode)) (r' : Round), TopDict body kvs ∧
      lookupKey (ascii "interval") kvs = .int 9223372037 ∧
      (runHttpTracker parseAddr t now [⟨[.reply 200 body], 0, 0⟩, r'])[0]? = some (now, now, .ok []) ∧
      (runHttpTracker parseAddr t now [⟨[.reply 200 body], 0, 0⟩, r'])[1]?.map (·.1) = some now) := by
  constructor
  · refine ⟨⟨[.reply 200 (ascii "d5:peerslee")], 0, 0⟩, ⟨[], 0, 0⟩, ?_⟩
    have h : readPeers parseAddr t (ascii "d5:peerslee") = ({ t with interval := wrap64 (0 * 10 ^ 9) }, .ok []) :=
      (C17_success_iff_partial parseAddr t _ _ _).2 ⟨0, _, _, noInterval_good, rfl, rfl⟩
    simp [runHttpTracker, announceTries, httpAnnounce, h, waitInterval, wrap64_small]
  · refine ⟨ascii "d8:intervali9223372037e5:peerslee", _, ⟨[], 0, 0⟩, hugeInterval_good.2, rfl, ?_⟩
    have h : readPeers parseAddr t (ascii "d8:intervali9223372037e5:peerslee") =
        ({ t with interval := wrap64 (9223372037 * 10 ^ 9) }, .ok []) :=
      (C17_success_iff_partial parseAddr t _ _ _).2 ⟨_, _, _, hugeInterval_good.1, rfl, rfl⟩
    have hw : wrap64 9223372037000000000 = -9223372036709551616 := by decide
    simp [runHttpTracker, announceTries, httpAnnounce, h, waitInterval, hw]

/-- A reply that says nothing about when to come back: none at all, one with a status other than 200, or a failure reason. -/
def SaysNothing (r : HttpReply) : Prop :=
  (∃ e, r = .fail e) ∨ (∃ status body, status ≠ 200 ∧ r = .reply status body) ∨
    ∃ body kvs s, r = .reply 200 body ∧ TopDict body kvs ∧ s ≠ [] ∧ lookupKey (ascii "failure reason") kvs = .str s

theorem announceTries_nothing (parseAddr : Bytes → Option Addr) (replies : List HttpReply) (h : ∀ r ∈ replies, SaysNothing r)
    (t : HttpTracker) : ∃ e, announceTries parseAddr t replies = (t, .err e) := by
  induction replies with
  | nil => exact ⟨_, rfl⟩
  | cons r rs ih =>
    have h1 : ∃ e, httpAnnounce parseAddr t r = (t, .err e) := by
      rcases h r List.mem_cons_self with ⟨e, rfl⟩ | ⟨status, body, hs, rfl⟩ | ⟨body, kvs, s, rfl, hd, hs, hf⟩
      · exact ⟨e, rfl⟩
      · exact C20_status parseAddr t status body hs
      · exact C20_failure parseAddr t body kvs hd s hs hf
    obtain ⟨e, h1⟩ := h1
    rw [announceTries, h1]
    simp only
    by_cases hr : rs = []
    · exact ⟨e, by rw [if_pos hr]⟩
    · rw [if_neg hr]
      exact ih (fun r hr => h r (List.mem_cons_of_mem _ hr))

theorem runHttpTracker_wait (parseAddr : Bytes → Option Addr) (rs : List Round) : ∀ (t : HttpTracker) (now i : Nat),
    (∀ r ∈ rs.take (i + 1), ∀ x ∈ r.replies, SaysNothing x) → ∀ start done res start' rest,
    (runHttpTracker parseAddr t now rs)[i]? = some (start, done, res) →
    (runHttpTracker parseAddr t now rs)[i+1]? = some (start', rest) → done + t.interval.toNat ≤ start' := by
  induction rs with
  | nil => intro t now i _ start done res start' rest h; simp [runHttpTracker] at h
  | cons r rs ih =>
    intro t now i hn start done res start' rest h1 h2
    obtain ⟨e, ht⟩ := announceTries_nothing parseAddr r.replies (hn r (by simp)) t
    rw [runHttpTracker, ht] at h1 h2
    cases i with
    | succ i =>
      exact ih t _ i (fun r' hr' => hn r' (by simp only [List.take_succ_cons]; exact List.mem_cons_of_mem _ hr'))
        start done res start' rest (by simpa using h1) (by simpa using h2)
    | zero =>
      simp only [List.getElem?_cons_zero, Option.some.injEq, Prod.mk.injEq, Nat.zero_add, List.getElem?_cons_succ] at h1 h2
      cases rs with
      | nil => simp [runHttpTracker] at h2
      | cons r2 rs =>
        rw [runHttpTracker] at h2
        simp only [List.getElem?_cons_zero, Option.some.injEq, Prod.mk.injEq] at h2
        rw [← h2.1, ← h1.2.1]
        simp only [waitInterval]
        omega

/-- C21, before the tracker has answered: as long as a tracker has said nothing about when to come back, it is left alone for a
minute after each failed announce. -/
theorem C21_failed_partial (parseAddr : Bytes → Option Addr) (addr trackerId : Bytes) (rs : List Round) (now i : Nat)
    (hn : ∀ r ∈ rs.take (i + 1), ∀ x ∈ r.replies, SaysNothing x) (start done : Nat) (res : Res (List AddrPort)) (start' : Nat)
    (rest : Nat × Res (List AddrPort))
    (h1 : (runHttpTracker parseAddr (newHttpTracker addr trackerId) now rs)[i]? = some (start, done, res))
    (h2 : (runHttpTracker parseAddr (newHttpTracker addr trackerId) now rs)[i+1]? = some (start', rest)) :
    done + 60000000000 ≤ start' :=
  runHttpTracker_wait parseAddr rs _ now i hn start done res start' rest h1 h2

example (parseAddr : Bytes → Option Addr) :
    (runHttpTracker parseAddr (newHttpTracker [] []) 0 [⟨[.fail "refused", .reply 503 []], 5, 1⟩, ⟨[], 0, 0⟩])[1]? =
      some (60000000006, 60000000006, .err "no attempt") := by
  simp [runHttpTracker, announceTries, httpAnnounce, newHttpTracker, waitInterval]

/-! ## C22 -/

theorem sorted_query (clientId : Bytes) (t : HttpTracker) (hash : Bytes) (d : AnnounceData) :
    sortKeys (buildQuery clientId t hash d) =
      [(ascii "compact", ascii "1"), (ascii "downloaded", itoa d.downloaded), (ascii "event", t.event),
       (ascii "info_hash", hash), (ascii "left", itoa d.left), (ascii "no_peer_id", ascii "1"),
       (ascii "numwant", ascii "50"), (ascii "peer_id", clientId), (ascii "port", itoa d.port),
       (ascii "trackerid", t.trackerId), (ascii "uploaded", itoa d.uploaded)] := rfl

theorem queryOf_append (base rest : Bytes) (hb : ∀ c ∈ base, c ≠ 63 ∧ c ≠ 35) (hr : ∀ c ∈ rest, c ≠ 35) :
    queryOf (base ++ 63 :: rest) = some rest := by
  unfold queryOf
  have h1 := (takeWhile_all (p := fun c => decide (c ≠ 35)) (base ++ 63 :: rest) (by
    intro c hc
    rcases List.mem_append.1 hc with h | h
    · simp [(hb c h).2]
    · rcases List.mem_cons.1 h with rfl | h
      · decide
      · simp [hr c h])).1
  have h2 := (takeWhile_append_stop (p := fun c => decide (c ≠ 63)) base rest 63 (by
    intro c hc; simp [(hb c hc).1]) (by decide)).2
  simp only
  rw [h1, h2]

/-- C22 for tracker URLs without query and fragment: the tracker decodes exactly the eleven parameters, unchanged
(in the order of their names; every byte string as hash, client id and tracker id, all counters). -/
theorem C22_params_partial (clientId : Bytes) (t : HttpTracker) (hash : Bytes) (d : AnnounceData)
    (ht : ∀ c ∈ t.addr, c ≠ 63 ∧ c ≠ 35) :
    ∃ q ps, queryOf (announceUrl clientId t hash d) = some q ∧ formParams q = some ps ∧
      ps.Perm [(ascii "info_hash", hash), (ascii "peer_id", clientId), (ascii "port", itoa d.port),
        (ascii "downloaded", itoa d.downloaded), (ascii "uploaded", itoa d.uploaded), (ascii "left", itoa d.left),
        (ascii "numwant", ascii "50"), (ascii "event", t.event), (ascii "trackerid", t.trackerId),
        (ascii "no_peer_id", ascii "1"), (ascii "compact", ascii "1")] := by
  refine ⟨_, _, queryOf_append t.addr _ ht (fun c hc => (joinPairs_clean _ c hc).1),
    formParams_joinPairs _ (by rw [sorted_query]; simp), ?_⟩
  exact sortKeys_perm _

theorem unreserved_plain (c : UInt8) (h : unreserved c = true) : c ∈ queryCharacters := by
  have : ∀ n, n < 256 → unreserved (UInt8.ofNat n) = true → UInt8.ofNat n ∈ queryCharacters := by decide +kernel
  have := this c.toNat c.toNat_lt
  rw [UInt8.ofNat_toNat] at this
  exact this h

theorem queryEscape_plain : ∀ (s : Bytes), ∀ c ∈ queryEscape s, c ∈ queryCharacters
  | [], c, h => by simp [queryEscape] at h
  | b :: s, c, h => by
    have hex : ∀ d, d < 16 → upperHex d ∈ queryCharacters := by decide +kernel
    have := b.toNat_lt
    rw [queryEscape] at h
    split at h
    · rcases List.mem_cons.1 h with rfl | h
      · exact unreserved_plain _ ‹_›
      · exact queryEscape_plain s c h
    · split at h
      · rcases List.mem_cons.1 h with rfl | h
        · decide
        · exact queryEscape_plain s c h
      · simp only [List.mem_cons] at h
        rcases h with rfl | rfl | rfl | h
        · decide
        · exact hex _ (by omega)
        · exact hex _ (by omega)
        · exact queryEscape_plain s c h

theorem joinPairs_plain : ∀ (es : List (Bytes × Bytes)), ∀ c ∈ joinPairs es, c ∈ queryCharacters
  | [], c, h => by simp [joinPairs] at h
  | [e], c, h => by
    simp only [joinPairs, encodePair, List.mem_append, List.mem_cons] at h
    rcases h with h | rfl | h
    · exact queryEscape_plain _ c h
    · decide
    · exact queryEscape_plain _ c h
  | e :: e' :: es, c, h => by
    simp only [joinPairs, encodePair, List.mem_append, List.mem_cons] at h
    rcases h with (h | rfl | h) | rfl | h
    · exact queryEscape_plain _ c h
    · decide
    · exact queryEscape_plain _ c h
    · decide
    · exact joinPairs_plain (e' :: es) c h

/-- C22: whatever the hash, the client id and the tracker id are, what follows the tracker's address and `?` is made of the characters a query may
have; no byte of them gets into the URL unescaped. -/
theorem C22_characters (clientId : Bytes) (t : HttpTracker) (hash : Bytes) (d : AnnounceData) :
    ∃ q, announceUrl clientId t hash d = t.addr ++ 63 :: q ∧ ∀ c ∈ q, c ∈ queryCharacters :=
  ⟨_, rfl, joinPairs_plain _⟩

/-- C22: letters, digits and the four other characters RFC 3986 calls unreserved stand for themselves in the query, so a hash or an id made of
them is sent as it is. -/
theorem C22_kept : ∀ (s : Bytes), (∀ c ∈ s, c ∈ queryCharacters ∧ c ∉ ascii "%+=&") → queryEscape s = s
  | [], _ => rfl
  | c :: s, h => by
    have : ∀ n, n < 256 → UInt8.ofNat n ∈ queryCharacters ∧ UInt8.ofNat n ∉ ascii "%+=&" → unreserved (UInt8.ofNat n) = true := by decide +kernel
    have := this c.toNat c.toNat_lt
    rw [UInt8.ofNat_toNat] at this
    rw [queryEscape, if_pos (this (h c (by simp))), C22_kept s (fun d hd => h d (by simp [hd]))]

example : queryEscape (ascii "-GT0101-kE~2_q.Z9aMz") = ascii "-GT0101-kE~2_q.Z9aMz" := C22_kept _ (by decide +kernel)

theorem splitAt_append_last (sep : UInt8) (q r : Bytes) :
    ∃ pre w w' ws, splitAt sep q = pre ++ [w] ∧ splitAt sep r = w' :: ws ∧ splitAt sep (q ++ r) = pre ++ (w ++ w') :: ws := by
  obtain ⟨w', ws, hr⟩ := List.exists_cons_of_ne_nil (splitAt_ne_nil sep r)
  induction q with
  | nil => exact ⟨[], [], w', ws, rfl, hr, by simpa using hr⟩
  | cons c q ih =>
    obtain ⟨pre, w, w'', ws', h1, h2, h3⟩ := ih
    rw [hr] at h2
    simp only [List.cons.injEq] at h2
    obtain ⟨rfl, rfl⟩ := h2
    rw [List.cons_append, splitAt, splitAt]
    split
    · exact ⟨[] :: pre, w, w', ws, by simp [h1], hr, by simp [h3]⟩
    · rw [h1, h3]
      cases pre with
      | nil => exact ⟨[], c :: w, w', ws, rfl, hr, by simp⟩
      | cons x pre => exact ⟨(c :: x) :: pre, w, w', ws, rfl, hr, by simp⟩

/-- C22, exact for tracker URLs `base?q` that already have a query: the pieces of the query the tracker sees are those of
`q`, with `?compact=1` glued to the last one, followed by the ten other parameters intact. -/
theorem C22_query_url_partial (clientId : Bytes) (t : HttpTracker) (hash : Bytes) (d : AnnounceData) (base q : Bytes)
    (ha : t.addr = base ++ 63 :: q) (hb : ∀ c ∈ base, c ≠ 63 ∧ c ≠ 35) (hq : ∀ c ∈ q, c ≠ 35) :
    ∃ raw pre w ten, queryOf (announceUrl clientId t hash d) = some raw ∧ splitAt 38 q = pre ++ [w] ∧
      splitAt 38 raw = pre ++ (w ++ ascii "?compact=1") :: ten ∧
      ten.mapM formPair = some
        [(ascii "downloaded", itoa d.downloaded), (ascii "event", t.event),
         (ascii "info_hash", hash), (ascii "left", itoa d.left), (ascii "no_peer_id", ascii "1"),
         (ascii "numwant", ascii "50"), (ascii "peer_id", clientId), (ascii "port", itoa d.port),
         (ascii "trackerid", t.trackerId), (ascii "uploaded", itoa d.uploaded)] := by
  have hurl : announceUrl clientId t hash d = base ++ 63 :: (q ++ 63 :: encodeValues (buildQuery clientId t hash d)) := by
    simp [announceUrl, ha]
  obtain ⟨pre, w, w', ws, h1, h2, h3⟩ := splitAt_append_last 38 q (63 :: encodeValues (buildQuery clientId t hash d))
  have hs : splitAt 38 (63 :: encodeValues (buildQuery clientId t hash d)) =
      ascii "?compact=1" :: [(ascii "downloaded", itoa d.downloaded), (ascii "event", t.event),
       (ascii "info_hash", hash), (ascii "left", itoa d.left), (ascii "no_peer_id", ascii "1"),
       (ascii "numwant", ascii "50"), (ascii "peer_id", clientId), (ascii "port", itoa d.port),
       (ascii "trackerid", t.trackerId), (ascii "uploaded", itoa d.uploaded)].map encodePair := by
    rw [splitAt, if_neg (by decide)]
    unfold encodeValues
    rw [splitAt_joinPairs _ (by rw [sorted_query]; simp), sorted_query]
    rw [List.map_cons]
    rfl
  rw [hs] at h2
  injection h2 with e1 e2
  subst e1; subst e2
  refine ⟨_, pre, w, _, ?_, h1, h3, mapM_formPair _⟩
  rw [hurl]
  refine queryOf_append base _ hb ?_
  intro c hc
  rcases List.mem_append.1 hc with h | h
  · exact hq c h
  · rcases List.mem_cons.1 h with rfl | h
    · decide
    · exact (joinPairs_clean _ c h).1

theorem mapM_length {α β : Type} (f : α → Option β) : ∀ (l : List α) (r : List β), l.mapM f = some r → r.length = l.length := by
  intro l
  induction l with
  | nil => intro r h; simp at h; subst h; rfl
  | cons a l ih =>
    intro r h
    rw [List.mapM_cons] at h
    cases ha : f a with
    | none => rw [ha] at h; simp at h
    | some b =>
      rw [ha] at h
      cases hl : l.mapM f with
      | none => rw [hl] at h; simp at h
      | some bs =>
        rw [hl] at h
        simp at h
        subst h
        simp [ih bs hl]

/-- C22 is false for *every* tracker URL that already has a query (passkeys): what the tracker decodes is never its own
parameters together with the client's eleven, in any order. -/
theorem C22_query_url_violated (clientId : Bytes) (t : HttpTracker) (hash : Bytes) (d : AnnounceData) (base q : Bytes)
    (ha : t.addr = base ++ 63 :: q) (hb : ∀ c ∈ base, c ≠ 63 ∧ c ≠ 35) (hq : ∀ c ∈ q, c ≠ 35)
    (own : List (Bytes × Bytes)) (hown : formParams q = some own) :
    ∀ raw all, queryOf (announceUrl clientId t hash d) = some raw → formParams raw = some all →
      ¬ all.Perm (own ++ buildQuery clientId t hash d) := by
  intro raw all h1 h2 hperm
  obtain ⟨raw', pre, w, ten, h3, h4, h5, h6⟩ := C22_query_url_partial clientId t hash d base q ha hb hq
  rw [h1] at h3
  injection h3 with h3
  subst h3
  have l1 := mapM_length _ _ _ h2
  have l2 := mapM_length _ _ _ hown
  have l3 := mapM_length _ _ _ h6
  rw [h5] at l1
  rw [h4] at l2
  have l4 := hperm.length_eq
  simp only [List.length_append, List.length_cons, List.length_nil, buildQuery] at l1 l2 l3 l4
  omega

/-- The hypotheses are met by a tracker URL with a passkey; its own parameter arrives as `key=v?compact=1`. -/
example (clientId hash : Bytes) (d : AnnounceData) :
    ∃ raw ten, queryOf (announceUrl clientId (newHttpTracker (ascii "http://t/a?key=v") []) hash d) = some raw ∧
      splitAt 38 raw = ascii "key=v?compact=1" :: ten := by
  obtain ⟨raw, pre, w, ten, h1, h2, h3, _⟩ := C22_query_url_partial clientId (newHttpTracker (ascii "http://t/a?key=v") [])
    hash d (ascii "http://t/a") (ascii "key=v") rfl (by decide) (by decide)
  have h4 : splitAt 38 (ascii "key=v") = [] ++ [ascii "key=v"] := by decide
  rw [h4] at h2
  obtain ⟨rfl, h5⟩ := List.append_inj' h2 rfl
  simp only [List.cons.injEq, and_true] at h5
  subst h5
  exact ⟨raw, ten, h1, h3⟩

example : ∀ c ∈ (newHttpTracker (ascii "http://t/announce") []).addr, c ≠ 63 ∧ c ≠ 35 := by decide

end Gotit.Props
