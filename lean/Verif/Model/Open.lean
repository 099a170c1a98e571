import Verif.Model.Files
import Verif.Model.HttpTracker
/-
  pkg/cmd/download.go: `runDownload` up to the creation of the manager: the torrent file is read, unmarshalled and opened.
-/
namespace Gotit

/-- The elements of a slice; none for a nil slice. -/
def GoVal.asList : GoVal → List GoVal
  | .slice vs => vs
  | _ => []

/-- An element of `Info.Files` (fields of tag_parser.go:189-192). -/
def torrentFileOf (v : GoVal) : TorrentFile :=
  { path := (v.field 0).asList.map GoVal.asString, length := (v.field 1).asInt }

/-- The fields of a `Metainfo` value that `New` reads (field positions of tag_parser.go:202-218). -/
def metainfoOf (v : GoVal) : Metainfo :=
  { announce := (v.field 0).asString,
    announceList := (v.field 1).asList.map (fun tier => tier.asList.map GoVal.asString),
    urlList := (v.field 2).asList.map GoVal.asString,
    files := ((metaInfo v).field 0).asList.map torrentFileOf,
    infoLength := ((metaInfo v).field 1).asInt,
    name := ((metaInfo v).field 2).asString,
    pieceLength := ((metaInfo v).field 3).asInt,
    pieces := ((metaInfo v).field 4).asString,
    infoDictRaw := metaInfoDictRaw v }

/-- `runDownload` (download.go:49-79) before `NewMng`. `stat` is what `os.Stat(outDir)` says (an error, or whether it is a
directory), `file` what opening and reading the torrent file gives. -/
def openTorrent (sha1 : Bytes → Bytes) (os : Os) (outDir : Bytes) (stat : Except String Bool) (file : Except String Bytes)
    (disk : Disk) : Res Torrent × Disk :=
  match stat with
  | .error e => (.err e, disk)
  | .ok false => (.err "not a directory", disk)
  | .ok true =>
    match file with
    | .error e => (.err e, disk)
    | .ok data =>
      match unmarshalMetainfo data with
      | (_, .err e) => (.err e, disk)
      | (_, .panic w) => (.panic w, disk)
      | (m, .ok) => newTorrent sha1 os (metainfoOf m) outDir disk

end Gotit
