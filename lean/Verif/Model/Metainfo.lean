import Verif.Model.Unmarshal
/-
  The target types used by gotit: `Metainfo` (tag_parser.go:189-218) and `Hash` (tag_parser.go:281-285).
-/
namespace Gotit

/-- An exported, tagged field. -/
def fld (name tag : String) (t : Ty) : (Bytes × Bytes × Bool) × Ty := ((ascii name, ascii tag, true), t)

/-- `TorrentFile` (tag_parser.go:189-192). -/
def torrentFileFields : List ((Bytes × Bytes × Bool) × Ty) :=
  [fld "Path" "path" (.slice .string), fld "Length" "length" (.int 64)]

/-- `Metainfo.Info` (tag_parser.go:206-212). -/
def infoFields : List ((Bytes × Bytes × Bool) × Ty) :=
  [fld "Files" "files,optional" (.slice (.struct torrentFileFields)),
   fld "Length" "length,optional" (.int 64),
   fld "Name" "name" .string,
   fld "PieceLength" "piece length" (.int 64),
   fld "Pieces" "pieces" .string]

/-- `Metainfo` (tag_parser.go:202-218). -/
def metainfoFields : List ((Bytes × Bytes × Bool) × Ty) :=
  [fld "Announce" "announce" .string,
   fld "AnnounceList" "announce-list,optional" (.slice (.slice .string)),
   fld "UrlList" "url-list,optional" (.slice .string),
   fld "Info" "info" (.struct infoFields),
   fld "InfoDictRaw" "info" (.slice (.uint 8)),
   fld "Comment" "comment,optional" .string,
   fld "CreatedBy" "created by,optional" .string,
   fld "CreationDate" "creation date,optional" (.int 64),
   fld "Encoding" "encoding,optional" .string]

/-- `&Metainfo{}` (bencode.go:37, download.go:71). -/
def newMetainfo : GoVal := .ptr (some (.struct (zeros metainfoFields)))

/-- `Unmarshal(data, &Metainfo{})`. -/
def unmarshalMetainfo (data : Bytes) : GoVal × Outcome :=
  unmarshal (.ptr (.struct metainfoFields)) newMetainfo data

/-- A field of the struct a value points to. -/
def GoVal.field (v : GoVal) (i : Nat) : GoVal :=
  match v with
  | .ptr (some (.struct fs)) => (fs[i]?).getD .other
  | .struct fs => (fs[i]?).getD .other
  | _ => .other

/-- The content of a `[]byte`. -/
def GoVal.asBytes : GoVal → Bytes
  | .bytes b => b
  | _ => []

/-- `m.Info` and `m.InfoDictRaw` (field positions in `metainfoFields`). -/
def metaInfo (m : GoVal) : GoVal := m.field 3
def metaInfoDictRaw (m : GoVal) : Bytes := (m.field 4).asBytes

/-- `Metainfo.Hash` (tag_parser.go:281-285); SHA-1 is an arbitrary function. -/
def metaHash (sha1 : Bytes → Bytes) (m : GoVal) : Bytes := sha1 (metaInfoDictRaw m)

end Gotit
