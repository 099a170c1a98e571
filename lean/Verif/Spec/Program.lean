import Verif.Model.Program
import Verif.Spec.HttpTracker
import Verif.Spec.PeerAnnounce
import Verif.Spec.Stream
import Verif.Spec.World
/-
  Where the bytes on the disk come from.
-/
namespace Gotit.Spec
open Gotit

/-- A reply of an HTTP tracker that names a peer: status 200, a dictionary without failure reason whose `peers` is a list with an entry that has
these texts as `ip` and `port`. -/
def NamesPeer (r : HttpReply) (ip port : Bytes) : Prop :=
  ∃ body kvs b b' raw raw' vs v, r = .reply 200 body ∧ parse body = .ok (.dict b kvs raw) ∧ optText (lookupKey (ascii "failure reason") kvs) = [] ∧
    lookupKey (ascii "peers") kvs = .list b' vs raw' ∧ v ∈ vs ∧ peerText v = some (ip, port)

/-- The address `addr` is that of a peer one of the replies names; each reply comes with the URL it was got from, and the URL is one the
metainfo lists. -/
def NamedByTracker (S : JobSetup) (mi : Metainfo) (replies : List (Bytes × HttpReply)) (addr : Bytes) : Prop :=
  ∃ u r ip port x n, (u, r) ∈ replies ∧ (u = mi.announce ∨ (∃ tier ∈ mi.announceList, u ∈ tier) ∨ u ∈ mi.urlList) ∧ NamesPeer r ip port ∧
    S.parseAddr ip = some x ∧ portNumber port = some n ∧ addr = S.name ⟨some x, n⟩

/-- What arrives on a connection begins with the handshake of somebody who has the torrent `hash`; `after` is the rest. -/
def IntroducedThen (hash : Bytes) (wire : List Ev) (after : Bytes) : Prop :=
  ∃ reserved id, reserved.length = 8 ∧ id.length = 20 ∧ arriving wire = torrentGreeting ++ (reserved ++ (hash ++ (id ++ after)))

/-- The block `d` stands in `bytes` as the payload of a piece message for the piece `index` and the offset `begin_`. -/
def PieceMessageIn (bytes : Bytes) (index begin_ : Nat) (d : Bytes) : Prop :=
  ∃ a hdr x y b, bytes = a ++ (hdr ++ (7 :: (x ++ (y ++ (d ++ b))))) ∧ hdr.length = 4 ∧ bigEndian hdr = 9 + d.length ∧ x.length = 4 ∧
    y.length = 4 ∧ bigEndian x = index ∧ bigEndian y = begin_

/-- Where a block `d` at position `pos` of the torrent came from: a tracker of the metainfo named an address; on a connection to this address somebody
introduced itself with the hash of the metainfo and later sent the block in a piece message; the metainfo lists the block's SHA-1 for the piece of
the message, and the position is the one the message gives. -/
def CameFrom (S : JobSetup) (mi : Metainfo) (pl : Nat) (replies : List (Bytes × HttpReply)) (conns : List (Bytes × List Ev)) (pos : Nat) (d : Bytes) : Prop :=
  ∃ addr wire after index begin_, (addr, wire) ∈ conns ∧ NamedByTracker S mi replies addr ∧ IntroducedThen (S.sha1 mi.infoDictRaw) wire after ∧
    PieceMessageIn after index begin_ d ∧ S.sha1 d = (mi.pieces.drop (20 * index)).take 20 ∧ pos = index * pl + begin_

end Gotit.Spec
