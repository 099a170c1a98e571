import Verif.Model.Torrent
import Verif.Model.Path
import Verif.Model.PeerMessage
/-
  pkg/torrent/torrent.go: New, the files on disk, CheckPiece, WritePiece; pkg/util/set.go.

  The disk maps path names to file contents. Symbolic links and other processes are not modelled; here writes
  to an open file succeed (Model/Faults.lean has writes that fail); whether Mkdir and Create succeed is decided by an arbitrary `Os`.
-/
namespace Gotit

/-- File contents by path; a path that was never created reads as empty. -/
abbrev Disk := Bytes → Bytes

/-- What the operating system answers to `os.Mkdir` (only whether the error is "does not exist" matters, torrent.go:146)
and to `os.Create`. -/
structure Os where
  mkdirNotExist : Bytes → Bool
  createError : Bytes → Option String

def Disk.update (d : Disk) (p : Bytes) (c : Bytes) : Disk := fun q => if q = p then c else d q

/-! ### pkg/util/set.go -/

/-- `StringSet` (set.go:3); the order in the list is not observable. -/
abbrev StringSet := List Bytes

/-- `Add` (set.go:9-16). -/
def StringSet.add (s : StringSet) (x : Bytes) : StringSet × Bool :=
  if s.contains x then (s, false) else (s ++ [x], true)

/-- `AddAll` (set.go:18-22). -/
def StringSet.addAll (s other : StringSet) : StringSet := other.foldl (fun s x => (s.add x).1) s

/-! ### New -/

/-- The fields of `Torrent` (torrent.go:25-53) that matter. `osFiles` are the paths of the open files. -/
structure Torrent where
  trackers : StringSet
  hash : Bytes
  length : Int
  pieceLength : Int
  pieces : List Piece
  piecesNum : Int
  files : List TorrentFile
  osFiles : List Bytes
  name : Bytes
  isDirectory : Bool
  numOfBlocks : Int
  requested : BitSet
  downloaded : BitSet

/-- The trackers (torrent.go:76-87). -/
def trackersOf (m : Metainfo) : StringSet :=
  let s0 : StringSet := (StringSet.add [] m.announce).1
  let s1 := m.announceList.foldl (fun s tier => tier.foldl (fun s e => (s.add e).1) s) s0
  m.urlList.foldl (fun s e => (s.add e).1) s1

/-- The file paths of `initDownloadDir` (torrent.go:143-155); `tf.Path[0]` panics for an empty path. -/
def filePaths (path : Bytes) : List TorrentFile → Res (List Bytes)
  | [] => .ok []
  | f :: fs =>
    match f.path with
    | [] => .panic "index out of range [0] with length 0"
    | p :: _ => (filePaths path fs).bind (fun ps => .ok (join path p :: ps))

/-- The loop over `os.Create` (torrent.go:157-163); `os.Create` truncates an existing file. -/
def createFiles (os : Os) : List Bytes → Disk → Res Unit × Disk
  | [], disk => (.ok (), disk)
  | p :: ps, disk =>
    match os.createError p with
    | some e => (.err e, disk)
    | none => createFiles os ps (disk.update p [])

/-- `initDownloadDir` (torrent.go:142-166). On success the result is `t.OsFiles`. -/
def initDownloadDir (os : Os) (root name : Bytes) (isDirectory : Bool) (files : List TorrentFile) (disk : Disk) :
    Res (List Bytes) × Disk :=
  let path := join root name
  if isDirectory then
    if os.mkdirNotExist path then (.err "mkdir: no such file or directory", disk)
    else
      match filePaths path files with
      | .ok ps =>
        match createFiles os ps disk with
        | (.ok (), disk') => (.ok ps, disk')
        | (.err e, disk') => (.err e, disk')
        | (.panic w, disk') => (.panic w, disk')
      | .err e => (.err e, disk)
      | .panic w => (.panic w, disk)
  else
    match createFiles os [path] disk with
    | (.ok (), disk') => (.ok [path], disk')
    | (.err e, disk') => (.err e, disk')
    | (.panic w, disk') => (.panic w, disk')

/-- `New` (torrent.go:55-111). `int(BlockLength)` division truncates towards zero. -/
def newTorrent (sha1 : Bytes → Bytes) (os : Os) (m : Metainfo) (downloadDir : Bytes) (disk : Disk) : Res Torrent × Disk :=
  match newPieces m.pieces with
  | .ok pieces =>
    let isDirectory : Bool := m.infoLength = 0
    let length := torrentLength m
    let files := if isDirectory then m.files else []
    let n := piecesNum length m.pieceLength
    match initDownloadDir os downloadDir m.name isDirectory files disk with
    | (.ok osFiles, disk') =>
      (.ok { trackers := trackersOf m, hash := sha1 m.infoDictRaw, length := length, pieceLength := m.pieceLength,
             pieces := pieces, piecesNum := n, files := files, osFiles := osFiles, name := m.name,
             isDirectory := isDirectory, numOfBlocks := m.pieceLength.tdiv blockLength,
             requested := bitsetNew n, downloaded := bitsetNew n }, disk')
    | (.err e, disk') => (.err e, disk')
    | (.panic w, disk') => (.panic w, disk')
  | .err e => (.err e, disk)
  | .panic w => (.panic w, disk)

/-! ### Writing -/

/-- A file after bytes were written at `pos`: a gap before `pos` reads as zeros. -/
def overwrite (c : Bytes) (pos : Nat) (d : Bytes) : Bytes :=
  (c ++ List.replicate (pos - c.length) 0).take pos ++ d ++ c.drop (pos + d.length)

/-- `(*os.File).WriteAt`. Writing no bytes does not touch the file. -/
def writeAt (disk : Disk) (path : Bytes) (d : Bytes) (pos : Int) : Res Unit × Disk :=
  if pos < 0 then (.err "negative offset", disk)
  else if d = [] then (.ok (), disk)
  else (.ok (), disk.update path (overwrite (disk path) pos.toNat d))

/-- The search for the file (torrent.go:206-213): the files from the right one on, and the position in it. -/
def findFile : List (TorrentFile × Bytes) → Int → List (TorrentFile × Bytes) × Int
  | [], pos => ([], pos)
  | (f, p) :: rest, pos => if f.length > pos then ((f, p) :: rest, pos) else findFile rest (wrap64 (pos - f.length))

/-- The writing loop (torrent.go:219-242). -/
def writeLoop : List (TorrentFile × Bytes) → Bytes → Int → Disk → Res Unit × Disk
  | [], data, _, disk => if data = [] then (.ok (), disk) else (.err "data extends beyond torrent files", disk)
  | (f, p) :: rest, data, pos, disk =>
    if data = [] then (.ok (), disk)
    else
      let available := wrap64 (f.length - pos)
      let toWrite : Int := if (data.length : Int) > available then available else data.length
      if toWrite < 0 then (.panic "slice bounds out of range", disk)
      else
        match writeAt disk p (data.take toWrite.toNat) pos with
        | (.ok (), disk') => writeLoop rest (data.drop toWrite.toNat) 0 disk'
        | x => x

/-- `writePieceData` (torrent.go:199-245). After `New` there are as many open files as torrent files, so the two lists
are walked together; a single-file torrent has exactly one open file. -/
def writePieceData (t : Torrent) (data : Bytes) (piecePoss : Int) (disk : Disk) : Res Unit × Disk :=
  if ¬ t.isDirectory then
    match t.osFiles with
    | [] => (.panic "index out of range [0] with length 0", disk)
    | p :: _ => writeAt disk p data piecePoss
  else
    match findFile (t.files.zip t.osFiles) piecePoss with
    | ([], _) => (.err "piece position beyond all torrent files", disk)
    | (fs, pos) => writeLoop fs data pos disk

/-- `CheckPiece` (torrent.go:168-174). -/
def checkPiece (sha1 : Bytes → Bytes) (t : Torrent) (data : Bytes) (index : Nat) : Res Bool :=
  match t.pieces[index]? with
  | none => .panic "index out of range"
  | some p => .ok (p.sha1 == sha1 data)

/-- What the writer changes: the disk, the bits of downloaded pieces, and the number given to `stats.AddDownload`
(the sum, modulo 2^64). -/
structure Written where
  disk : Disk
  downloaded : BitSet
  added : Nat

/-- One iteration of `WritePiece` (torrent.go:178-191). The result tells whether the writer survives. -/
def writeOne (t : Torrent) (w : Written) (msg : PeerMessage) : Res Written :=
  match msg.data with
  | .ok data =>
    let pos := wrap64 (wrap64 (msg.index * t.pieceLength) + msg.offset)
    let w := { w with added := (w.added + data.length) % 2 ^ 64 }
    match writePieceData t data pos w.disk with
    | (.ok (), disk) =>
      if (msg.offset : Int) + data.length = t.pieceLength then
        .ok { w with disk := disk, downloaded := w.downloaded.set msg.index }
      else .ok { w with disk := disk }
    | (.err _, disk) => .ok { w with disk := disk }
    | (.panic e, _) => .panic e
  | .err e => .err e
  | .panic e => .panic e

/-- `WritePiece` (torrent.go:176-195): all messages of the channel, in order. -/
def writePieces (t : Torrent) : List PeerMessage → Written → Res Written
  | [], w => .ok w
  | m :: ms, w => (writeOne t w m).bind (writePieces t ms)

end Gotit
