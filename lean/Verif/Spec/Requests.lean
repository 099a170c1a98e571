import Verif.Model.Peer
/-
  Histories of one peer's requests, and of the messages it received.
-/
namespace Gotit.Spec
open Gotit

/-- `Requests p0 evs p`: from `p0`, after any number of `nextRequestMessage` calls, with any answers of the retry queue and
of `Next`, and any other activity of the peer in between, the peer is `p`; `evs` is everything that happened. -/
inductive Requests (p0 : Peer) : List ReqEv → Peer → Prop
  | start : Requests p0 [] p0
  | call {evs p} (failed : Option PeerMessage) (next : Option Nat) : Requests p0 evs p →
      Requests p0 (evs ++ (p.nextRequestMessage failed next).2.2) (p.nextRequestMessage failed next).2.1
  | other {evs p p'} : Requests p0 evs p → p'.blockIdx = p.blockIdx → p'.pieceIdx = p.pieceIdx → p'.blockNum = p.blockNum →
      Requests p0 evs p'

/-- The requests created in a stretch of history. -/
def createdIn (evs : List ReqEv) : List PeerMessage := evs.filterMap (fun | .created m => some m | _ => none)

/-- `Next` is not called in a stretch of history. -/
def NoNext (evs : List ReqEv) : Prop := ∀ r, ReqEv.next r ∉ evs

/-- The piece most recently obtained from `Next`. -/
def lastNext (evs : List ReqEv) : Option Nat := (evs.filterMap (fun | .next (some i) => some i | _ => none)).getLast?

/-- The requests are for piece `i` and their ranges follow each other from 0 to `upTo` without gap or overlap. -/
def Tiles (i : Nat) (ms : List PeerMessage) (upTo : Nat) : Prop :=
  (∀ m ∈ ms, m.type = 6 ∧ m.index = i) ∧
  (∀ k m, ms[k]? = some m → m.offset = ((ms.take k).map (·.blockLength)).sum) ∧ (ms.map (·.blockLength)).sum = upTo

/-- All messages, handled one after the other; the accepted pieces and the peer at the end. -/
def handleAll (sha1 : Bytes → Bytes) (t : Torrent) : Peer → List PeerMessage → Res (List PeerMessage × Peer)
  | p, [] => .ok ([], p)
  | p, m :: ms => (p.handlePeerMessage sha1 t m).bind fun (o, p') => (handleAll sha1 t p' ms).bind fun (os, p'') => .ok (o.toList ++ os, p'')

/-- The last message of one of two types. -/
def lastOfTypes (a b : UInt8) (ms : List PeerMessage) : Option PeerMessage := (ms.filter (fun m => m.type = a ∨ m.type = b)).getLast?

/-- The messages after the last bitfield (all, if there is none). -/
def afterBitfield (ms : List PeerMessage) : List PeerMessage := (ms.reverse.takeWhile (fun m => m.type ≠ 5)).reverse

/-- A piece message whose data has the hash of the piece. -/
def Verified (sha1 : Bytes → Bytes) (t : Torrent) (m : PeerMessage) : Prop :=
  m.type = 7 ∧ ∃ p d, t.pieces[m.index]? = some p ∧ m.data = .ok d ∧ p.sha1 = sha1 d

end Gotit.Spec
