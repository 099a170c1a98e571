import Verif.Model.Open
import Verif.Model.TrackerNew
/-
  What the program opens and closes: files, sockets of trackers, bodies of responses. Each function here follows the branches of the function
  it is about and gives the opening and closing calls in their order. Connections of peers are the matter of Model/PeerAnnounce.lean.
-/
namespace Gotit

/-- What is opened. -/
inductive Held where
  /-- the file given on the command line (bencode.go:27, download.go:61) -/
  | torrentFile
  /-- a file of the download (torrent.go:158) -/
  | target (path : Bytes)
  /-- the socket of a UDP tracker (udp_tracker.go:50) -/
  | socket (host : Bytes)
  /-- `res.Body` (http_tracker.go:70) -/
  | body
  deriving DecidableEq

/-- A call that opens or closes something. -/
inductive HandleEv where
  | opened (h : Held)
  | closed (h : Held)
  deriving DecidableEq

/-- The loop over `os.Create` (torrent.go:157-163): it is left at the first error; the files made before stay in `t.OsFiles`. -/
def createTrace (os : Os) : List Bytes → List HandleEv
  | [] => []
  | p :: ps =>
    match os.createError p with
    | some _ => []
    | none => .opened (.target p) :: createTrace os ps

/-- `initDownloadDir` (torrent.go:142-166). -/
def initTrace (os : Os) (root name : Bytes) (isDirectory : Bool) (files : List TorrentFile) : List HandleEv :=
  let path := join root name
  if isDirectory then
    if os.mkdirNotExist path then []
    else
      match filePaths path files with
      | .ok ps => createTrace os ps
      | _ => []
  else createTrace os [path]

/-- `New` (torrent.go:55-111): nothing is opened before `initDownloadDir`; its error is returned without closing anything (106-108). -/
def newTrace (os : Os) (m : Metainfo) (downloadDir : Bytes) : List HandleEv :=
  match newPieces m.pieces with
  | .ok _ =>
    let isDirectory : Bool := m.infoLength = 0
    initTrace os downloadDir m.name isDirectory (if isDirectory then m.files else [])
  | _ => []

/-- `runDownload` (download.go:49-79) before `NewMng`. `file` is what opening the torrent file gives: an error, or what reading it gives. -/
def openTrace (os : Os) (outDir : Bytes) (stat : Except String Bool) (file : Except String (Except String Bytes)) : List HandleEv :=
  match stat with
  | .error _ => []
  | .ok false => []
  | .ok true =>
    match file with
    | .error _ => []
    | .ok (.error _) => [.opened .torrentFile]
    | .ok (.ok data) =>
      match unmarshalMetainfo data with
      | (m, .ok) => .opened .torrentFile :: newTrace os (metainfoOf m) outDir
      | _ => [.opened .torrentFile]

/-- The command `bencode` (bencode.go:25-47). -/
def inspectTrace (file : Except String (Except String Bytes)) : List HandleEv :=
  match file with
  | .error _ => []
  | .ok _ => [.opened .torrentFile]

/-- `newUdpTracker` and `newHttpTracker` as called by `tracker.New` (tracker.go:28-42): a UDP tracker has a socket, which only `Close`
(udp_tracker.go:68-70) closes; nothing calls it. -/
def trackerTrace (rest : Bytes → Bytes → Bytes → Option Bytes) (dial : Bytes → Bool) (addr : Bytes) : List HandleEv :=
  match trackerNew rest dial addr with
  | .udp host => [.opened (.socket host)]
  | _ => []

/-- What `t.c.Do(r)` gives (http_tracker.go:70): an error, or a status and what reading the body gives. An error of
`http.NewRequestWithContext` (65-68) is among the errors. -/
abbrev HttpDone := Except String (Int × Except String Bytes)

/-- `httpTracker.Announce` (http_tracker.go:63-96), with the opening and closing calls: `defer` runs `res.Body.Close()` (74-80) when the
function is left in whatever way, a panic of `readPeers` included. -/
def httpAnnounceTrace (parseAddr : Bytes → Option Addr) (t : HttpTracker) (r : HttpDone) :
    (HttpTracker × Res (List AddrPort)) × List HandleEv :=
  match r with
  | .error e => ((t, .err e), [])
  | .ok (status, content) =>
    let result : HttpTracker × Res (List AddrPort) :=
      match content with
      | .error e => (t, .err e)
      | .ok b => if status ≠ 200 then (t, .err "tracker error response") else readPeers parseAddr t b
    (result, [.opened .body] ++ [.closed .body])

/-- `Torrent.Close` (torrent.go:251-258) closes `t.OsFiles`. -/
def closeTrace (t : Torrent) : List HandleEv := t.osFiles.map (fun p => .closed (.target p))

end Gotit
