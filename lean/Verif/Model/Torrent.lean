import Verif.Model.Go
import Verif.Model.BitSet
import Verif.Model.Float
import Verif.Model.Mutex
import Verif.Model.Metainfo
/-
  pkg/torrent/piece.go and the bookkeeping part of pkg/torrent/torrent.go. Files are in Model/Files.lean.
-/
namespace Gotit

/-! ### pkg/torrent/piece.go -/

/-- `Piece` (piece.go:10-13). -/
structure Piece where
  index : Nat
  sha1 : Bytes
  deriving DecidableEq

/-- `Piece.CheckHash` (piece.go:22-24). -/
def Piece.checkHash (p : Piece) (sha1 : Bytes) : Bool := p.sha1 == sha1

/-- The loop of `NewPieces` (piece.go:40-46); the first argument counts the remaining iterations, `len(pieces)/20`. -/
def newPiecesLoop : Nat → Nat → Bytes → List Piece
  | 0, _, _ => []
  | k + 1, index, bs => ⟨index, bs.take 20⟩ :: newPiecesLoop k (index + 1) (bs.drop 20)

/-- `NewPieces` (piece.go:34-49). -/
def newPieces (pieces : Bytes) : Res (List Piece) :=
  if pieces.length % 20 ≠ 0 then .err "invalid pieces len"
  else .ok (newPiecesLoop (pieces.length / 20) 0 pieces)

/-! ### The fields of Metainfo that New uses -/

/-- `bencode.TorrentFile` (tag_parser.go:189-192). -/
structure TorrentFile where
  path : List Bytes
  length : Int
  deriving DecidableEq

/-- The part of `bencode.Metainfo` (tag_parser.go:202-218) that `New` reads. -/
structure Metainfo where
  announce : Bytes
  announceList : List (List Bytes)
  urlList : List Bytes
  files : List TorrentFile
  infoLength : Int
  name : Bytes
  pieceLength : Int
  pieces : Bytes
  infoDictRaw : Bytes

/-! ### New: numbers -/

/-- `BlockLength` (torrent.go:23). -/
def blockLength : Nat := 128 * 1024

/-- The integer conversion of a float64 on amd64: out of range values give the smallest int. -/
def floatToInt64 (x : Int) : Int := if -2 ^ 63 ≤ x ∧ x < 2 ^ 63 then x else -2 ^ 63

/-- `int(math.Ceil(float64(t.Length) / float64(t.PieceLength)))` (torrent.go:102). Division by zero gives an infinity or
NaN, whose conversion is the smallest int on amd64. -/
def piecesNum (length pieceLength : Int) : Int :=
  if pieceLength = 0 then -2 ^ 63
  else
    let q := fdiv 53 (toFloat 53 length.natAbs) (toFloat 53 pieceLength.natAbs)
    if (0 ≤ length ∧ 0 < pieceLength) ∨ (length ≤ 0 ∧ pieceLength < 0) then floatToInt64 q.ceil
    else floatToInt64 (-(q.floor : Int))

/-- `bitset.New(uint(n))` (torrent.go:103-104): a negative `n` becomes a huge number; `make` of more than 2^48 bytes
panics, which `bitset.New` recovers into an empty set. Running out of memory for smaller sizes is not modelled. -/
def bitsetNew (n : Int) : BitSet :=
  let u := (n % 2 ^ 64).toNat
  if 8 * BitSet.wordsNeeded u > 2 ^ 48 then BitSet.new 0 else BitSet.new u

/-- `t.Length` (torrent.go:88-101). -/
def torrentLength (m : Metainfo) : Int :=
  if m.infoLength ≠ 0 then m.infoLength
  else m.files.foldl (fun a f => wrap64 (a + f.length)) 0

/-! ### Next, SetDownloaded, Done -/

/-- Local state of `Next` (torrent.go:120-134): about to call `NextClear(i)`, about to test `have`, about to set. -/
inductive NextLoc where
  | find (i : Nat)
  | test (i : Nat)
  | mark (i : Nat)

/-- `Next` (torrent.go:120-134), operation by operation; the argument of a call is the peer's bit set. -/
def nextMethod : Methods BitSet BitSet NextLoc (Option Nat) where
  start := fun _ => .find 0
  step := fun have_ l requested =>
    match l with
    | .find i =>
      match requested.nextClear i with
      | none => (requested, .inr none)
      | some j => (requested, .inl (.test j))
    | .test j => if have_.test j then (requested, .inl (.mark j)) else (requested, .inl (.find (j + 1)))
    | .mark j => (requested.set j, .inr (some j))

/-- The two methods on `downloaded`. -/
inductive DownOp where
  | setDownloaded (i : Nat)
  | done

/-- `SetDownloaded` (torrent.go:113-118) and `Done` (torrent.go:136-140); the return value of `SetDownloaded` is `none`. -/
def downMethods : Methods BitSet DownOp Unit (Option Bool) where
  start := fun _ => ()
  step := fun op _ downloaded =>
    match op with
    | .setDownloaded i => (downloaded.set i, .inr none)
    | .done => (downloaded, .inr (some downloaded.all))

end Gotit
