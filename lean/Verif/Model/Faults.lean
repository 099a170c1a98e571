import Verif.Model.Files
/-
  pkg/torrent/torrent.go: WritePiece and writePieceData again, on a disk whose writes can fail (no space left, a failing device).

  Model/Files.lean has the same functions for a disk that takes every write at a position that is not negative.
-/
namespace Gotit

/-- What the disk does with the writes of one block: `fl i` is for the `i`-th file tried, `none` if all bytes are written, `some k` if
`WriteAt` returns an error after (at most) `k` bytes. -/
abbrev Faults := Nat → Option Nat

/-- All writes succeed. -/
def Faults.none : Faults := fun _ => Option.none

/-- `(*os.File).WriteAt`. A negative position is refused before anything is written, and writing no bytes does not reach the disk. -/
def writeAtF (f : Option Nat) (disk : Disk) (path : Bytes) (d : Bytes) (pos : Int) : Res Unit × Disk :=
  match f with
  | none => writeAt disk path d pos
  | some k =>
    if pos < 0 ∨ d = [] then writeAt disk path d pos
    else (.err "input/output error", (writeAt disk path (d.take k) pos).2)

/-- The writing loop (torrent.go:219-242); `i` files were tried before. -/
def writeLoopF (fl : Faults) : Nat → List (TorrentFile × Bytes) → Bytes → Int → Disk → Res Unit × Disk
  | _, [], data, _, disk => if data = [] then (.ok (), disk) else (.err "data extends beyond torrent files", disk)
  | i, (f, p) :: rest, data, pos, disk =>
    if data = [] then (.ok (), disk)
    else
      let available := wrap64 (f.length - pos)
      let toWrite : Int := if (data.length : Int) > available then available else data.length
      if toWrite < 0 then (.panic "slice bounds out of range", disk)
      else
        match writeAtF (fl i) disk p (data.take toWrite.toNat) pos with
        | (.ok (), disk') => writeLoopF fl (i + 1) rest (data.drop toWrite.toNat) 0 disk'
        | x => x

/-- `writePieceData` (torrent.go:199-245), see `writePieceData`. -/
def writePieceDataF (fl : Faults) (t : Torrent) (data : Bytes) (piecePoss : Int) (disk : Disk) : Res Unit × Disk :=
  if ¬ t.isDirectory then
    match t.osFiles with
    | [] => (.panic "index out of range [0] with length 0", disk)
    | p :: _ => writeAtF (fl 0) disk p data piecePoss
  else
    match findFile (t.files.zip t.osFiles) piecePoss with
    | ([], _) => (.err "piece position beyond all torrent files", disk)
    | (fs, pos) => writeLoopF fl 0 fs data pos disk

/-- One iteration of `WritePiece` (torrent.go:178-191), see `writeOne`: the bytes are counted first, an error is only logged. -/
def writeOneF (fl : Faults) (t : Torrent) (w : Written) (msg : PeerMessage) : Res Written :=
  match msg.data with
  | .ok data =>
    let pos := wrap64 (wrap64 (msg.index * t.pieceLength) + msg.offset)
    let w := { w with added := (w.added + data.length) % 2 ^ 64 }
    match writePieceDataF fl t data pos w.disk with
    | (.ok (), disk) =>
      if (msg.offset : Int) + data.length = t.pieceLength then
        .ok { w with disk := disk, downloaded := w.downloaded.set msg.index }
      else .ok { w with disk := disk }
    | (.err _, disk) => .ok { w with disk := disk }
    | (.panic e, _) => .panic e
  | .err e => .err e
  | .panic e => .panic e

/-- `WritePiece` (torrent.go:176-195): all messages of the channel, in order, each with what the disk does. -/
def writePiecesF (t : Torrent) : List (PeerMessage × Faults) → Written → Res Written
  | [], w => .ok w
  | m :: ms, w => (writeOneF m.2 t w m.1).bind (writePiecesF t ms)

end Gotit
