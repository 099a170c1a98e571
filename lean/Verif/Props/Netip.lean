import Verif.Model.Netip
import Verif.Spec.Netip
import Verif.Lemmas.NetipText
import Verif.Props.ProgramCrash
import Verif.Props.ManagerRun
import Verif.Props.StatusLine
/-
  C138 and C139: the texts of addresses.
-/
namespace Gotit.Props
open Gotit Gotit.Spec

/-! ## Responses -/

theorem denotes_num (n : Nat) (h : n ≤ maxNumber) : Denotes (105 :: natDigits n ++ [101]) (.int n) := by
  obtain ⟨h1, h2⟩ := natDigits_spec n
  have := Denotes.int (natDigits n) h1
  rwa [machineNumber_of_le _ (by omega), h2] at this

theorem denotes_text (s : Bytes) (h : s.length ≤ maxNumber) : Denotes (natDigits s.length ++ 58 :: s) (.str s) := by
  have := denotes_encodeStr s h
  unfold encodeStr at this
  rwa [itoa_nonneg _ (by omega), Int.toNat_natCast] at this

theorem mapOf_two (a b : Bencode) : mapOf [(ascii "ip", a), (ascii "port", b)] = [(ascii "ip", a), (ascii "port", b)] :=
  mapOf_nodup (es := [(ascii "ip", a), (ascii "port", b)]) (show [ascii "ip", ascii "port"].Nodup by decide)

theorem mapOf_one (k : Bytes) (a : Bencode) : mapOf [(k, a)] = [(k, a)] :=
  mapOf_nodup (es := [(k, a)]) (show [k].Nodup by simp)

theorem entry_text (x y : Bytes) : (100 :: ((UInt8.ofNat (48 + (ascii "ip").length) :: 58 :: ascii "ip") ++ (x ++
    ((UInt8.ofNat (48 + (ascii "port").length) :: 58 :: ascii "port") ++ (y ++ [])))) ++ [101]) =
    ascii "d2:ip" ++ x ++ ascii "4:port" ++ y ++ [101] := by
  rw [show 100 :: ((UInt8.ofNat (48 + (ascii "ip").length) :: 58 :: ascii "ip") ++ (x ++
    ((UInt8.ofNat (48 + (ascii "port").length) :: 58 :: ascii "port") ++ (y ++ [])))) =
    (100 :: UInt8.ofNat (48 + (ascii "ip").length) :: 58 :: ascii "ip") ++ (x ++
    ((UInt8.ofNat (48 + (ascii "port").length) :: 58 :: ascii "port") ++ (y ++ []))) from rfl,
    show (100 :: UInt8.ofNat (48 + (ascii "ip").length) :: 58 :: ascii "ip") = ascii "d2:ip" by decide,
    show (UInt8.ofNat (48 + (ascii "port").length) :: 58 :: ascii "port") = ascii "4:port" by decide]
  simp only [List.append_nil, List.append_assoc]

theorem denotes_entry (p : Bytes × Nat) (h1 : p.1.length ≤ maxNumber) (h2 : p.2 ≤ maxNumber) :
    ∃ v, Denotes (peerEntry p) v ∧ peerText v = some (p.1, natDigits p.2) := by
  have hi := DenotesEntries.cons _ _ _ _ _ _ (denotes_a (ascii "ip") (by decide)) (denotes_text p.1 h1)
    (.cons _ _ _ _ _ _ (denotes_a (ascii "port") (by decide)) (denotes_num p.2 h2) .nil)
  have hd := Denotes.dict _ _ hi
  rw [entry_text, mapOf_two] at hd
  refine ⟨_, hd, ?_⟩
  simp only [peerText, lookupKey, if_neg (show ascii "ip" ≠ ascii "port" by decide), if_pos, Bencode.toText, prettyPrint]
  rw [itoa_nonneg _ (by omega), Int.toNat_natCast]

theorem denotes_entries : ∀ (ps : List (Bytes × Nat)), (∀ p ∈ ps, p.1.length ≤ maxNumber ∧ p.2 ≤ maxNumber) →
    ∃ vs, DenotesSeq (ps.flatMap peerEntry) vs ∧ peerTexts vs = some (ps.map fun p => (p.1, natDigits p.2)) := by
  intro ps
  induction ps with
  | nil => intro _; exact ⟨[], .nil, rfl⟩
  | cons p ps ih =>
    intro h
    obtain ⟨vs, h1, h2⟩ := ih (fun q hq => h q (by simp [hq]))
    obtain ⟨v, h3, h4⟩ := denotes_entry p (h p (by simp)).1 (h p (by simp)).2
    refine ⟨v :: vs, .cons _ _ _ _ h3 h1, ?_⟩
    simp [peerTexts, h4, h2]

theorem peersResponse_good (ps : List (Bytes × Nat)) (h : ∀ p ∈ ps, p.1.length ≤ maxNumber ∧ p.2 ≤ maxNumber) :
    ∃ vs, GoodResponse (peersResponse ps) 0 vs (ps.map fun p => (p.1, natDigits p.2)) := by
  obtain ⟨vs, h1, h2⟩ := denotes_entries ps h
  have hd := Denotes.dict _ _ (DenotesEntries.cons _ _ _ _ _ _ (denotes_a (ascii "peers") (by decide)) (Denotes.list _ _ h1) .nil)
  have he : (100 :: ((UInt8.ofNat (48 + (ascii "peers").length) :: 58 :: ascii "peers") ++ ((108 :: ps.flatMap peerEntry ++ [101]) ++ [])) ++ [101]) =
      peersResponse ps := by
    rw [show 100 :: ((UInt8.ofNat (48 + (ascii "peers").length) :: 58 :: ascii "peers") ++ ((108 :: ps.flatMap peerEntry ++ [101]) ++ [])) =
      ((100 :: UInt8.ofNat (48 + (ascii "peers").length) :: 58 :: ascii "peers") ++ [108]) ++ ((ps.flatMap peerEntry ++ [101]) ++ []) by
        simp only [List.cons_append, List.append_assoc, List.nil_append],
      show (100 :: UInt8.ofNat (48 + (ascii "peers").length) :: 58 :: ascii "peers") ++ [108] = ascii "d5:peersl" by decide]
    unfold peersResponse
    rw [show ascii "ee" = [101] ++ [101] by decide]
    simp only [List.append_nil, List.append_assoc]
  rw [he, mapOf_one] at hd
  have hp := parse_complete hd []
  rw [List.append_nil] at hp
  refine ⟨vs, _, ⟨true, _, hp⟩, ?_, ?_, ⟨true, _, if_pos rfl⟩, h2⟩
  · rw [lookupKey, if_neg (by decide), lookupKey]; rfl
  · rw [lookupKey, if_neg (by decide), lookupKey]; rfl

/-! ## C138 -/

theorem portNumber_digits {n : Nat} (h : n < 65536) : portNumber (natDigits n) = some n := by
  obtain ⟨h1, h2⟩ := natDigits_spec n
  have h2 : (natDigits n).foldl (fun a c => a * 10 + (c.toNat - 48)) 0 = n := h2
  unfold portNumber
  rw [h2, if_pos]
  refine ⟨natDigits_ne_nil n, ?_, h⟩
  rw [List.all_eq_true]
  intro c hc
  have := h1 c hc
  simp only [Bool.and_eq_true, decide_eq_true_eq, UInt8.le_iff_toNat_le]
  exact this

/-- C138, what holds (1): entry `i` of a response gives a valid address exactly when its ip is the text of an address (a dotted quad or one
of the forms of RFC 4291, perhaps with a zone) and its port a decimal number below 65536, and then it is that address. Missing: host names. -/
theorem C138_entries_partial (t t' : HttpTracker) (body : Bytes) (kvs : List (Bytes × Bencode)) (hd : TopDict body kvs) (p : Bool)
    (vs : List Bencode) (raw : Bytes) (hl : lookupKey (ascii "peers") kvs = .list p vs raw) (ips : List AddrPort)
    (h : httpAnnounce netipParse t (.reply 200 body) = (t', .ok ips)) :
    ips.length = vs.length ∧
    ∀ (i : Nat) v, vs[i]? = some v → ∃ ip port, peerText v = some (ip, port) ∧ ∃ a : AddrPort, ips[i]? = some a ∧
      (a.isValid = true ↔ ∃ x n, AddrText ip x ∧ portNumber port = some n) ∧
      (∀ x n, AddrText ip x → portNumber port = some n → a = ⟨some x, n⟩) := by
  obtain ⟨h1, h2⟩ := C18_entries_partial netipParse t t' body kvs hd p vs raw hl ips h
  simp only [netipParse_iff] at h2
  exact ⟨h1, h2⟩

/-- C138, what holds (2): a response that lists addresses, in whatever of the forms of text, is answered with these addresses. -/
theorem C138_listed_partial (t : HttpTracker) (ps : List (Bytes × Addr × Nat))
    (h : ∀ p ∈ ps, AddrText p.1 p.2.1 ∧ p.2.2 < 65536 ∧ p.1.length ≤ maxNumber) :
    ∃ t', httpAnnounce netipParse t (.reply 200 (peersResponse (ps.map fun p => (p.1, p.2.2)))) = (t', .ok (ps.map fun p => ⟨some p.2.1, p.2.2⟩)) := by
  obtain ⟨vs, hg⟩ := peersResponse_good (ps.map fun p => (p.1, p.2.2)) (by
    intro q hq
    obtain ⟨p, hp, rfl⟩ := List.mem_map.1 hq
    have := h p hp
    exact ⟨this.2.2, by have := this.2.1; simp only [maxNumber]; omega⟩)
  refine ⟨_, (C17_success_iff_partial _ _ _ _ _).2 ⟨_, _, _, hg, ?_, rfl⟩⟩
  rw [List.map_map, List.map_map]
  refine List.map_congr_left fun p hp => ?_
  obtain ⟨h1, h2, _⟩ := h p hp
  simp only [Function.comp_apply, peerAddr, (netipParse_iff _ _).2 h1, portNumber_digits h2]

/-- No host name is the text of an address. -/
theorem hostName_no_address {s : Bytes} (h : HostName s) : netipParse s = none := by
  cases ha : netipParse s with
  | none => rfl
  | some a =>
    exfalso
    obtain ⟨h1, c, hc, h2, h3⟩ := h
    have hsix : ∀ {x b r : Bytes}, Six x b → s = x ++ r → False := by
      intro x b r hx he
      have := List.mem_of_find?_eq_some (six_find hx r)
      rw [← he] at this
      exact h1 this
    cases (netipParse_iff _ _).1 ha with
    | v4 hq =>
      obtain ⟨s1, s2, s3, s4, _, _, _, _, rfl, _, k1, k2, k3, k4⟩ := hq
      simp only [List.mem_append, List.mem_singleton] at hc
      rcases hc with (((((hc | hc) | hc) | hc) | hc) | hc) | hc
      · exact h3 (k1.2.1 c hc)
      · exact h2 hc
      · exact h3 (k2.2.1 c hc)
      · exact h2 hc
      · exact h3 (k3.2.1 c hc)
      · exact h2 hc
      · exact h3 (k4.2.1 c hc)
    | v6 hx => exact hsix (r := []) hx (by simp)
    | zone hx _ => exact hsix hx (List.append_assoc _ _ _)

/-- C138 is false of the code: however many peers trackers list by host names, no peer is ever connected to. -/
theorem C138_violated (S : JobSetup) (hp : S.parseAddr = netipParse) (disk : Disk) (P : Prog) (h : Prog.Reachable S disk P)
    (hr : ∀ x ∈ P.replies, ∃ hosts : List (Bytes × Nat), (∀ p ∈ hosts, HostName p.1 ∧ p.1.length ≤ 255 ∧ p.2 < 65536) ∧
      x.2 = .reply 200 (peersResponse hosts)) : P.world.peers = [] := by
  cases hw : P.world.peers with
  | nil => rfl
  | cons x xs =>
    exfalso
    obtain ⟨ip, wire, rest, _, _, hz, ⟨u, r, ht, ht', addrs, hm, _, ha, hi⟩, _⟩ := (traced h).peers 0 (by rw [hw]; simp)
    obtain ⟨hosts, hh, he⟩ := hr _ hm
    simp only at he
    subst he
    obtain ⟨vs, hg⟩ := peersResponse_good hosts (fun p hp => ⟨by have := (hh p hp).2.1; simp only [maxNumber]; omega, by
      have := (hh p hp).2.2; simp only [maxNumber]; omega⟩)
    have := (C17_success_iff_partial S.parseAddr ht _ _ _).2 ⟨_, _, _, hg, rfl, rfl⟩
    rw [show httpAnnounce S.parseAddr ht (.reply 200 (peersResponse hosts)) = _ from this] at ha
    simp only [Prod.mk.injEq, Res.ok.injEq] at ha
    rw [← ha.2] at hi
    simp only [List.map_map, List.mem_map, Function.comp_apply] at hi
    obtain ⟨p, hpm, rfl⟩ := hi
    apply hz
    simp only [peerAddr, hp, hostName_no_address (hh p hpm).1]
    rfl

/-- A tracker that lists `localhost:80` and, in another way of writing, three addresses. -/
example (t : HttpTracker) : (∃ t', httpAnnounce netipParse t (.reply 200 (peersResponse [(ascii "localhost", 80)])) = (t', .ok [.zero])) ∧
    HostName (ascii "localhost") ∧
    ∃ t', httpAnnounce netipParse t (.reply 200 (peersResponse [(ascii "10.0.0.1", 80), (ascii "2001:DB8::1", 81), (ascii "fe80::1%eth0", 82)])) =
      (t', .ok [⟨some (.v4 10 0 0 1), 80⟩, ⟨some (.v6 [0x20, 1, 0xd, 0xb8, 0, 0, 0, 0, 0, 0, 0, 0, 0, 0, 0, 1] []), 81⟩,
        ⟨some (.v6 [0xfe, 0x80, 0, 0, 0, 0, 0, 0, 0, 0, 0, 0, 0, 0, 0, 1] (ascii "eth0")), 82⟩]) := by
  have hl : HostName (ascii "localhost") := ⟨by decide, 108, by decide, by decide, by decide⟩
  refine ⟨?_, hl, ?_⟩
  · obtain ⟨vs, hg⟩ := peersResponse_good [(ascii "localhost", 80)] (by simp only [List.mem_singleton, forall_eq]; decide)
    refine ⟨_, (C17_success_iff_partial _ _ _ _ _).2 ⟨_, _, _, hg, ?_, rfl⟩⟩
    simp only [List.map_cons, List.map_nil, peerAddr, hostName_no_address hl]
    rfl
  · refine C138_listed_partial t [(ascii "10.0.0.1", .v4 10 0 0 1, 80),
      (ascii "2001:DB8::1", .v6 [0x20, 1, 0xd, 0xb8, 0, 0, 0, 0, 0, 0, 0, 0, 0, 0, 0, 1] [], 81),
      (ascii "fe80::1%eth0", .v6 [0xfe, 0x80, 0, 0, 0, 0, 0, 0, 0, 0, 0, 0, 0, 0, 0, 1] (ascii "eth0"), 82)] ?_
    simp only [← netipParse_iff]
    intro p hp
    simp only [List.mem_cons, List.not_mem_nil, or_false] at hp
    rcases hp with rfl | rfl | rfl
    · exact ⟨by decide +kernel, by decide, by decide⟩
    · exact ⟨by decide +kernel, by decide, by decide⟩
    · exact ⟨by decide +kernel, by decide, by decide⟩

/-! ## C139 -/

/-- The running peers of the manager are the `Run` goroutines, with their addresses. -/
theorem running_addrs {S : JobSetup} {disk : Disk} {P : Prog} (h : Prog.Reachable S disk P) :
    P.mgr.running.map (fun p => some p.addr) = P.runs.map (fun i => P.addrs[i]?) := by
  induction h with
  | start => rfl
  | @step P P' h0 st ih =>
    have ht := traced h0
    cases st with
    | manager ha hp => simp only [hp.running]; exact ih
    | @connected a b ip ips k evs ha hc hk hn =>
      simp only [List.map_cons]
      congr 1
      · rw [List.getElem?_append_right (by rw [ht.addrs]; exact Nat.le_refl _), ht.addrs]; simp
      · rw [ih]
        refine List.map_congr_left fun i hi => ?_
        have : P.addrs[i]? ∈ P.mgr.running.map (fun p => some p.addr) := by rw [ih]; exact List.mem_map.2 ⟨i, hi, rfl⟩
        obtain ⟨p, _, hp⟩ := List.mem_map.1 this
        have := (List.getElem?_eq_some_iff.1 hp.symm).1
        rw [List.getElem?_append_left this]
    | @peer i q r r' es W' c' ha hi hp hs hl he hr =>
      have : (P.mgr.afterEvents es).running = P.mgr.running := by
        rcases step_accepts hs hl with hn | ⟨m, rfl, hc⟩
        · rw [afterEvents_none _ _ hn]
        · rfl
      simp only [this]
      exact ih
    | @peerEnds i q r x y a p b ha hx hr hlen hp hloc =>
      rw [hx, hr] at ih
      simp only [List.map_append, List.map_cons] at ih ⊢
      obtain ⟨h1, h2⟩ := List.append_inj ih (by simp [hlen])
      rw [h1, (List.cons.inj h2).2]
    | _ => exact ih

/-- Two running peers have different addresses, as texts. -/
theorem running_distinct {S : JobSetup} {disk : Disk} {P : Prog} (h : Prog.Reachable S disk P) {i j : Nat} (hi : i ∈ P.runs) (hj : j ∈ P.runs)
    (hij : i ≠ j) : P.addrs[i]? ≠ P.addrs[j]? := by
  have h1 := running_addrs h
  have h2 := (C61_download (progJoined h).mgr).2.1
  intro he
  have hn : (P.mgr.running.map PeerRef.addr).Nodup := by
    rw [List.nodup_iff_count]
    intro a
    have := h2 a
    omega
  have hn : (P.mgr.running.map (fun p => some p.addr)).Nodup := by
    have := List.Pairwise.map (R := (· ≠ ·)) (S := (· ≠ ·)) some (fun a b hab h => hab (Option.some.inj h)) hn
    rw [List.map_map] at this
    exact this
  rw [h1] at hn
  obtain ⟨x, y, hx⟩ := List.append_of_mem hi
  rw [hx] at hn hj
  simp only [List.map_append, List.map_cons, List.nodup_append, List.nodup_cons] at hn
  simp only [List.mem_append, List.mem_cons] at hj
  rcases hj with hj | hj | hj
  · exact hn.2.2 _ (List.mem_map.2 ⟨j, hj, rfl⟩) _ List.mem_cons_self he.symm
  · exact hij hj.symm
  · exact hn.2.1.1 (List.mem_map.2 ⟨j, hj, he.symm⟩)

theorem six_length {s b : Bytes} (h : Six s b) : b.length = 16 := by
  cases h with
  | full _ h => exact h
  | short _ _ _ h => simp only [List.length_append, List.length_replicate]; exact h

/-- The addresses of responses are written and read alike. -/
theorem named_address {S : JobSetup} (hp : S.parseAddr = netipParse) {rs : List (Bytes × HttpReply)} {ip : Bytes} (h : NamedIn S rs ip)
    (hz : ip ≠ S.name .zero) : ∃ a : AddrPort, ip = S.name a ∧ a.isValid = true ∧ a.WellFormed := by
  obtain ⟨u, r, ht, ht', addrs, h1, h2, h3, h4⟩ := h
  unfold httpAnnounce at h3
  split at h3
  · simp at h3
  · split at h3
    · simp at h3
    · obtain ⟨n, vs, ps, _, rfl, _⟩ := (C17_success_iff_partial _ _ _ _ _).1 h3
      simp only [List.map_map, List.mem_map, Function.comp_apply] at h4
      obtain ⟨p, _, rfl⟩ := h4
      rw [hp] at hz ⊢
      refine ⟨peerAddr netipParse p, rfl, ?_⟩
      revert hz
      simp only [peerAddr]
      cases ha : netipParse p.1 with
      | none => intro hz; exact absurd rfl hz
      | some x =>
        cases hn : portNumber p.2 with
        | none => intro hz; exact absurd rfl hz
        | some n =>
          intro _
          refine ⟨rfl, .inr ⟨x, rfl, ?_⟩⟩
          have ht := (netipParse_iff _ _).1 ha
          generalize p.1 = q at ht
          cases ht with
          | v4 _ => trivial
          | v6 h => exact six_length h
          | zone h _ => exact six_length h

/-- C139, what holds, and when it does not: two connections at the same time always are to different addresses, and if these are the same
endpoint, it is an IPv4 endpoint and (at least) one of the addresses is in the IPv4-mapped form. -/
theorem C139_exact_partial (S : JobSetup) (hp : S.parseAddr = netipParse) (hn : S.name = addrPortText) (disk : Disk) (P : Prog)
    (h : Prog.Reachable S disk P) (i j : Nat) (hi : i ∈ P.runs) (hj : j ∈ P.runs) (hij : i ≠ j) :
    ∃ x y : AddrPort, P.addrs[i]? = some (addrPortText x) ∧ P.addrs[j]? = some (addrPortText y) ∧ x.isValid = true ∧ y.isValid = true ∧ x ≠ y ∧
      (SameEndpoint x y → ∃ a b c d n, EndpointOf x (mapped a b c d) [] n ∧ EndpointOf y (mapped a b c d) [] n ∧
        ((∃ z, x = ⟨some (.v6 (mapped a b c d) z), n⟩) ∨ ∃ z, y = ⟨some (.v6 (mapped a b c d) z), n⟩)) := by
  have hd := running_distinct h hi hj hij
  have get : ∀ i ∈ P.runs, ∃ x : AddrPort, P.addrs[i]? = some (addrPortText x) ∧ x.isValid = true ∧ x.WellFormed := by
    intro i hi
    have hlt : i < P.world.peers.length := by
      have : P.addrs[i]? ∈ P.mgr.running.map (fun p => some p.addr) := by rw [running_addrs h]; exact List.mem_map.2 ⟨i, hi, rfl⟩
      obtain ⟨p, _, hp⟩ := List.mem_map.1 this
      rw [← (traced h).addrs]
      exact (List.getElem?_eq_some_iff.1 hp.symm).1
    obtain ⟨ip, wire, rest, h1, _, h2, h3, _⟩ := (traced h).peers i hlt
    obtain ⟨x, rfl, h4, h5⟩ := named_address hp h3 h2
    exact ⟨x, by rw [h1, hn], h4, h5⟩
  obtain ⟨x, hx, vx, wx⟩ := get i hi
  obtain ⟨y, hy, vy, wy⟩ := get j hj
  have hne : x ≠ y := by
    rintro rfl
    exact hd (hx.trans hy.symm)
  refine ⟨x, y, hx, hy, vx, vy, hne, ?_⟩
  rintro ⟨s, z, n, e1, e2⟩
  cases e1 with
  | @v4 a b c d =>
    refine ⟨a, b, c, d, n, .v4, e2, .inr ?_⟩
    generalize hm : mapped a b c d = m at e2
    cases e2 with
    | v4 => simp only [mapped, List.append_cancel_left_eq, List.cons.injEq, true_and, and_true] at hm; obtain ⟨rfl, rfl, rfl, rfl⟩ := hm; exact absurd rfl hne
    | v6mapped => exact ⟨_, rfl⟩
    | v6 h => exact absurd hm.symm (h a b c d)
  | @v6mapped a b c d z =>
    exact ⟨a, b, c, d, n, .v6mapped, e2, .inl ⟨z, rfl⟩⟩
  | v6 h1 =>
    cases e2 with
    | v4 => exact absurd rfl (h1 _ _ _ _)
    | v6mapped => exact absurd rfl (h1 _ _ _ _)
    | v6 _ => exact absurd rfl hne

/-- C139 is false of the code: a tracker that gives an IPv4 address once as a dotted quad, once in the IPv4-mapped form, makes the client
hold two connections to the same endpoint. -/
theorem C139_violated (S : JobSetup) (hp : S.parseAddr = netipParse) (hn : S.name = addrPortText) (u : Bytes) (tail : List Bytes)
    (hu : S.urls = u :: tail) (hk : trackerNew S.rest S.dial u = .http u) (hh : S.t.hash.length = 20) (disk : Disk) (a b c d : UInt8) (n : Nat)
    (hp' : n < 65536) :
    ∃ P, Prog.Reachable S disk P ∧ 0 ∈ P.runs ∧ 1 ∈ P.runs ∧
      P.addrs = [addrPortText ⟨some (.v4 a b c d), n⟩, addrPortText ⟨some (.v6 (mapped a b c d) []), n⟩] ∧
      SameEndpoint ⟨some (.v4 a b c d), n⟩ ⟨some (.v6 (mapped a b c d) []), n⟩ := by
  have hw : ∀ x : Addr, x.WellFormed → (addrText x).length ≤ maxNumber → ∀ t : HttpTracker, ∃ t',
      httpAnnounce netipParse t (.reply 200 (peersResponse [(addrText x, n)])) = (t', .ok [⟨some x, n⟩]) := by
    intro x hx hl t
    exact C138_listed_partial t [(addrText x, x, n)] (by
      intro q hq
      simp only [List.mem_singleton] at hq
      subst hq
      exact ⟨addrText_means hx, hp', hl⟩)
  have o : ∀ w : UInt8, (natDigits w.toNat).length ≤ 3 := fun w => octet_length (natDigits_octet w)
  have l4 : (text4 a b c d).length ≤ 15 := by
    have := o a; have := o b; have := o c; have := o d
    simp only [text4, List.length_append, List.length_cons]
    omega
  have l6 : (addrText (.v6 (mapped a b c d) [])).length ≤ 22 := by
    show (text6 (mapped a b c d) ++ []).length ≤ 22
    rw [List.append_nil]
    show (ascii "::ffff:" ++ text4 a b c d).length ≤ 22
    rw [List.length_append, show (ascii "::ffff:").length = 7 by decide]
    omega
  let ipOf : Nat → AddrPort := fun k => if k = 0 then ⟨some (.v4 a b c d), n⟩ else ⟨some (.v6 (mapped a b c d) []), n⟩
  have hs : Supply S ipOf (fun k => .reply 200 (peersResponse [(addrText (if k = 0 then .v4 a b c d else .v6 (mapped a b c d) []), n)])) 2 := by
    have w0 : (ipOf 0).WellFormed := .inr ⟨_, rfl, trivial⟩
    have w1 : (ipOf 1).WellFormed := .inr ⟨_, rfl, rfl⟩
    have ne : addrPortText (ipOf 0) ≠ addrPortText (ipOf 1) := by
      intro he
      have := addrPortText_inj w0 w1 he
      simp [ipOf] at this
    refine ⟨⟨u, tail, hu, hk⟩, fun k hk => ?_, fun i j hi hj he => ?_, fun i hi he => ?_⟩
    · rw [hp]
      rcases (by omega : k = 0 ∨ k = 1) with rfl | rfl
      · exact ⟨⟨[], [], [], 0⟩, hw (.v4 a b c d) trivial (by show (text4 a b c d).length ≤ _; simp only [maxNumber]; omega) _⟩
      · exact ⟨⟨[], [], [], 0⟩, hw (.v6 (mapped a b c d) []) rfl (by simp only [maxNumber]; omega) _⟩
    · rw [hn] at he
      rcases (by omega : i = 0 ∨ i = 1) with rfl | rfl <;> rcases (by omega : j = 0 ∨ j = 1) with rfl | rfl
      · rfl
      · exact absurd he ne
      · exact absurd he.symm ne
      · rfl
    · rw [hn] at he
      rcases (by omega : i = 0 ∨ i = 1) with rfl | rfl
      · exact absurd (addrPortText_inj w0 (.inl rfl) he) (by simp [ipOf, AddrPort.zero])
      · exact absurd (addrPortText_inj w1 (.inl rfl) he) (by simp [ipOf, AddrPort.zero])
  obtain ⟨P0, l0, r0, _⟩ := lifted_start (disk := disk) (rest := fun _ => []) hs
  have a0 : (World.start S.t disk).alive := ⟨rfl, fun x hx => by cases hx⟩
  obtain ⟨P1, l1, r1, _, d1⟩ := lifted_spawn_at hs hh l0 a0 (show 0 < 2 by omega)
  have a1 : ({ World.start S.t disk with peers := [(0, Run.start (newPeer S.t))] } : World).alive := ⟨rfl, fun x hx => by
    simp only [List.mem_singleton] at hx; subst hx; simp [Run.start]⟩
  obtain ⟨P2, l2, r2, _, d2⟩ := lifted_spawn_at hs hh l1 a1 (show 1 < 2 by omega)
  have e0 : P0.addrs = [] := by
    have := (traced l0.reach).addrs
    rw [l0.world] at this
    exact List.length_eq_zero_iff.1 this
  refine ⟨P2, l2.reach, ?_, ?_, ?_, _, _, _, .v4, .v6mapped⟩
  · rw [r2, r1]; simp [World.start]
  · rw [r2, r1]; simp [World.start]
  · rw [d2, d1, e0, hn]; rfl

/-- The client connects to 1.2.3.4, port 80, twice. -/
example (t : Torrent) (hh : t.hash.length = 20) (disk : Disk) :
    ∃ S P, S.t = t ∧ Prog.Reachable S disk P ∧ 0 ∈ P.runs ∧ 1 ∈ P.runs ∧ P.addrs = [ascii "1.2.3.4:80", ascii "[::ffff:1.2.3.4]:80"] := by
  obtain ⟨P, h1, h2, h3, h4, _⟩ := C139_violated
    { sha1 := id, t := t, clientId := [], parseAddr := netipParse, name := addrPortText, rest := fun _ _ _ => some [], dial := fun _ => true,
      urls := [ascii "http://t/a"] } rfl rfl (ascii "http://t/a") [] rfl
    (show trackerNew (fun _ _ _ => some []) (fun _ => true) (ascii "http://t/a") = _ by decide) hh disk 1 2 3 4 80 (by omega)
  refine ⟨_, P, rfl, h1, h2, h3, ?_⟩
  rw [h4]
  decide +kernel

end Gotit.Props
