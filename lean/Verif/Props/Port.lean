import Verif.Spec.Port
import Verif.Lemmas.Strconv
import Verif.Lemmas.Literal
import Verif.Props.HttpTracker
import Verif.Props.UdpTracker
import Verif.Props.Netip
/-
  C150: the port trackers are told.
-/
namespace Gotit.Props
open Gotit Spec

/-- The flag is read as the specification says. -/
theorem portFlag_given (arg : Option Bytes) (p : Int) : portFlag arg = .ok p ↔ PortGiven arg p := by
  cases arg with
  | none => simp only [portFlag, PortGiven, Except.ok.injEq]; exact eq_comm
  | some s => simpa [portFlag, PortGiven] using parseInt0_iff (by omega : 1 ≤ 64) (by omega) s p

theorem figures_port {size : Nat} {p : Int} {σ : FigSys} (h : FigSys.Reachable size p σ) : ∀ d, σ.reader = .built d → d.port = p := by
  induction h with
  | init => intro d h; cases h
  | step _ st ih =>
    intro d hd
    cases st with
    | readLeft => simp only [FigLoc.built.injEq] at hd; rw [← hd]
    | readDownload => cases hd
    | readUpload => cases hd
    | again => cases hd
    | _ => exact ih d hd

theorem filter_perm_single {α : Type} {p : α → Bool} {l l' : List α} {x : α} (h : l.Perm l') (h' : l'.filter p = [x]) : l.filter p = [x] := by
  have := h.filter p
  rw [h'] at this
  exact List.perm_singleton.1 this

/-- What the tracker reads from the text of any integer. -/
theorem portNumber_itoa (n : Int) : portNumber (itoa n) = if 0 ≤ n ∧ n < 65536 then some n.toNat else none := by
  cases n with
  | ofNat n =>
    rw [show itoa (Int.ofNat n) = natDigits n from rfl]
    by_cases h : n < 65536
    · rw [portNumber_digits h, if_pos ⟨Int.natCast_nonneg n, by simpa using (by omega : (n : Int) < 65536)⟩]; rfl
    · rw [if_neg (by simp; omega)]
      obtain ⟨h1, h2⟩ := natDigits_spec n
      have h2 : (natDigits n).foldl (fun a c => a * 10 + (c.toNat - 48)) 0 = n := h2
      unfold portNumber
      rw [h2, if_neg (fun h' => h h'.2.2)]
  | negSucc n =>
    rw [if_neg (by omega)]
    have e : itoa (Int.negSucc n) = 45 :: natDigits (n + 1) := by simp [itoa]
    rw [e]
    unfold portNumber
    rw [if_neg (by simp)]

/-- C150 for HTTP trackers without query, exactly: one port is told, in decimal, however it was written on the command line. A tracker
can read it if and only if it is between 0 and 65535, and then reads what was given. -/
theorem C150_http_partial (arg : Option Bytes) (p : Int) (size : Nat) (d : AnnounceData) (clientId : Bytes) (t : HttpTracker) (hash : Bytes)
    (hp : PortGiven arg p) (h : Announces arg size d) (ht : ∀ c ∈ t.addr, c ≠ 63 ∧ c ≠ 35) :
    portsTold (announceUrl clientId t hash d) = some [if 0 ≤ p ∧ p < 65536 then some p.toNat else none] := by
  obtain ⟨p', σ, hp', hr, hb⟩ := h
  rw [(portFlag_given arg p).2 hp] at hp'
  injection hp' with hp'
  subst hp'
  have hport := figures_port hr d hb
  obtain ⟨q, ps, h1, h2, h3⟩ := C22_params_partial clientId t hash d ht
  have h4 : ps.filter (fun x => x.1 == ascii "port") = [(ascii "port", itoa d.port)] :=
    filter_perm_single h3 (by simp [ascii, List.filter_cons])
  rw [portsTold]
  simp only [h1, h2, Option.map_some, h4, List.map_cons, List.map_nil, portNumber_itoa, hport]

/-- Every download gets to an announce. -/
theorem announces_exist (arg : Option Bytes) (p : Int) (hp : PortGiven arg p) (size : Nat) : ∃ d, Announces arg size d := by
  have h0 : FigSys.Reachable size p _ := .init
  have h1 := h0.step (.readDownload rfl)
  have h2 := h1.step (.readUpload rfl)
  have h3 := h2.step (.readLeft rfl)
  exact ⟨_, p, _, (portFlag_given arg p).2 hp, h3, rfl⟩

/-- The program gets to announcing itself exactly if nothing was said about the port or a number of 64 bits was written: there is no other check. -/
theorem C150_flag_partial (arg : Option Bytes) (size : Nat) : (∃ d, Announces arg size d) ↔ ∃ p, PortGiven arg p :=
  ⟨fun ⟨_, p, _, h, _⟩ => ⟨p, (portFlag_given arg p).1 h⟩, fun ⟨p, h⟩ => announces_exist arg p h size⟩

/-- C150 is false of the code: any integer of 64 bits is accepted and announced as it is; outside 0 to 65535 no tracker can read it. -/
theorem C150_violated : ¬ PortTold ∧ ∀ p : Int, -2 ^ 63 ≤ p → p < 2 ^ 63 → ¬ (0 ≤ p ∧ p < 65536) → ∀ size, ∃ arg d, Announces (some arg) size d ∧
    ∀ clientId (t : HttpTracker) hash, (∀ c ∈ t.addr, c ≠ 63 ∧ c ≠ 35) → portsTold (announceUrl clientId t hash d) = some [none] := by
  have key : ∀ p : Int, -2 ^ 63 ≤ p → p < 2 ^ 63 → ¬ (0 ≤ p ∧ p < 65536) → ∀ size, ∃ arg d, Announces (some arg) size d ∧
    ∀ clientId (t : HttpTracker) hash, (∀ c ∈ t.addr, c ≠ 63 ∧ c ≠ 35) → portsTold (announceUrl clientId t hash d) = some [none] := by
    intro p h1 h2 h3 size
    have hp : PortGiven (some (itoa p)) p := by
      rw [← portFlag_given, portFlag, parseInt0_itoa p 64 (by omega) (by omega), if_pos ⟨h1, h2⟩]
    obtain ⟨d, hd⟩ := announces_exist _ p hp size
    refine ⟨itoa p, d, hd, fun clientId t hash ht => ?_⟩
    rw [C150_http_partial _ p size d clientId t hash hp hd ht, if_neg h3]
  refine ⟨fun h => ?_, key⟩
  obtain ⟨arg, d, hd, hn⟩ := key 70000 (by decide) (by decide) (by omega) 0
  obtain ⟨p, _, _, _, hp⟩ := h (some arg) 0 d [] { addr := [], event := [], trackerId := [], interval := 0 } [] hd (by simp)
  rw [hn [] _ [] (by simp)] at hp
  cases hp

/-- C150 is false for UDP trackers, whatever port was given: the datagram ends before the place where the port belongs. -/
theorem C150_udp_violated (clientId : Bytes) (hc : clientId.length = 20) (connId tid : Nat) (hash : Bytes) (d : AnnounceData) (key : Nat) :
    udpPort (createAnnounce clientId connId tid hash d key) = none := by
  have h := (C23_length_violated clientId hc connId tid hash d key).1
  rw [udpPort, List.drop_eq_nil_of_le (by rw [h]; omega)]

/-- What UDP trackers are sent instead: the port modulo 2^32 in the last four bytes. -/
theorem C150_udp_partial (arg : Option Bytes) (p : Int) (size : Nat) (d : AnnounceData) (clientId : Bytes) (hc : clientId.length = 20)
    (connId tid : Nat) (hash : Bytes) (key : Nat) (hp : PortGiven arg p) (h : Announces arg size d) :
    ((numberAt (createAnnounce clientId connId tid hash d key) 76 4 : Nat) : Int) = p % 2 ^ 32 := by
  obtain ⟨p', σ, hp', hr, hb⟩ := h
  rw [(portFlag_given arg p).2 hp] at hp'
  injection hp' with hp'
  subst hp'
  have hport := figures_port hr d hb
  have hlt : low32 d.port < 2 ^ 32 := by unfold low32; omega
  have e : createAnnounce clientId connId tid hash d key = (putBE 8 connId ++ putBE 4 1 ++ putBE 4 tid ++ binaryWriteString hash ++ clientId ++
      putBE 8 d.downloaded ++ putBE 8 d.left ++ putBE 8 d.uploaded ++ putBE 4 0 ++ putBE 4 0 ++ putBE 4 key ++
      putBE 4 (low32 (-1))) ++ (putBE 4 (low32 d.port) ++ []) := by simp [createAnnounce]
  rw [e, numberAt_mid (by simp [binaryWriteString, hc]) (by simp), getBE_putBE 4 _ (by omega)]
  unfold low32
  rw [hport]
  omega

/-- The cases: no flag; a port in hexadecimal; a number that is no port. -/
example : portFlag none = .ok 6666 ∧ portFlag (some (ascii "0x1A0A")) = .ok 6666 ∧ portFlag (some (ascii "-1")) = .ok (-1) :=
  ⟨rfl, rfl, rfl⟩

example (size : Nat) (clientId hash : Bytes) : ∃ d, Announces none size d ∧
    portsTold (announceUrl clientId { addr := ascii "http://t/a", event := [], trackerId := [], interval := 0 } hash d) = some [some 6666] := by
  obtain ⟨d, hd⟩ := announces_exist none 6666 rfl size
  exact ⟨d, hd, C150_http_partial none 6666 size d clientId _ hash rfl hd (by decide +kernel)⟩

end Gotit.Props
