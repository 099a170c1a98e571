import Verif.Model.Open
import Verif.Model.StatusLine
/-
  `Metainfo.String` (tag_parser.go:194-285) and the command `bencode` (pkg/cmd/bencode.go:25-47), which is meant to print it; how the
  commands report errors (pkg/cmd/app.go:95-118, pkg/printer/printer.go:47-50).
-/
namespace Gotit

/-- A `Metainfo` (tag_parser.go:202-218) with the fields that are only printed. (`Encoding` is never read.) -/
structure MetaText where
  info : Metainfo
  comment : Bytes
  createdBy : Bytes
  creationDate : Int

/-- The fields of a `Metainfo` value (positions of tag_parser.go:202-218). -/
def metaTextOf (v : GoVal) : MetaText :=
  { info := metainfoOf v, comment := (v.field 5).asString, createdBy := (v.field 6).asString, creationDate := (v.field 7).asInt }

/-- `strings.Repeat("\t", ident)`. -/
def tabs (ident : Nat) : Bytes := List.replicate ident 9

/-- `printValue` of a string (tag_parser.go:245-248). -/
def printString (name value : Bytes) (ident : Nat) : Bytes :=
  if value ≠ [] then tabs ident ++ name ++ ascii ": " ++ value ++ [10] else []

/-- `printValue` of an int64 (tag_parser.go:249-253). -/
def printInt (name : Bytes) (value : Int) (ident : Nat) : Bytes :=
  if value ≠ 0 then tabs ident ++ name ++ ascii ": " ++ itoa value ++ [10] else []

/-- The three list cases of `printValue` (tag_parser.go:254-277): `item` is what is written for one element after its indentation. -/
def printList {α : Type} (name : Bytes) (item : α → Bytes) (values : List α) (ident : Nat) : Bytes :=
  if values.length ≠ 0 then
    tabs ident ++ name ++ ascii ": [\n" ++ (values.map fun v => tabs (ident + 1) ++ item v ++ [10]).flatten ++ tabs ident ++ ascii "]\n"
  else []

/-- `uint64(n)` of an `int64`. -/
def toUint64 (n : Int) : Nat := (n % 2 ^ 64).toNat

/-- `TorrentFile.String` (tag_parser.go:194-200). -/
def describeFile (f : TorrentFile) : Bytes :=
  ascii "[path: " ++ joinSlash f.path ++ ascii ", size: " ++ byteSize (toUint64 f.length) ++ ascii "]"

/-- `%s` of a `[]string`: the elements between brackets, with spaces. -/
def bracketed (l : List Bytes) : Bytes := ascii "[" ++ List.intercalate [32] l ++ ascii "]"

/-- The alphabet of `base64.URLEncoding`. -/
def base64Alphabet : Bytes := ascii "ABCDEFGHIJKLMNOPQRSTUVWXYZabcdefghijklmnopqrstuvwxyz0123456789-_"

def base64Char (n : Nat) : UInt8 := base64Alphabet.getD (n % 64) 0

/-- `base64.URLEncoding.EncodeToString`: groups of three bytes, with padding. -/
def base64Url : Bytes → Bytes
  | [] => []
  | [a] =>
    let n := a.toNat * 2 ^ 16
    [base64Char (n / 2 ^ 18), base64Char (n / 2 ^ 12), 61, 61]
  | [a, b] =>
    let n := a.toNat * 2 ^ 16 + b.toNat * 2 ^ 8
    [base64Char (n / 2 ^ 18), base64Char (n / 2 ^ 12), base64Char (n / 2 ^ 6), 61]
  | a :: b :: c :: rest =>
    let n := a.toNat * 2 ^ 16 + b.toNat * 2 ^ 8 + c.toNat
    base64Char (n / 2 ^ 18) :: base64Char (n / 2 ^ 12) :: base64Char (n / 2 ^ 6) :: base64Char n :: base64Url rest

/-- `Metainfo.String` (tag_parser.go:220-241). `date` is `time.Unix(n, 0).Format(time.DateTime)`, which depends on the local time zone. -/
def describe (sha1 : Bytes → Bytes) (date : Int → Bytes) (m : MetaText) : Bytes :=
  ascii "{\n" ++ ascii "\tinfo: {\n" ++
  printString (ascii "name") m.info.name 2 ++
  printString (ascii "length") (byteSize (toUint64 m.info.infoLength)) 2 ++
  printInt (ascii "piece-length") m.info.pieceLength 2 ++
  printList (ascii "files") (fun f => describeFile f ++ [44]) m.info.files 2 ++
  ascii "\t}\n" ++
  printString (ascii "comment") m.comment 1 ++
  printString (ascii "created-by") m.createdBy 1 ++
  printString (ascii "creation-date") (date m.creationDate) 1 ++
  printString (ascii "announce") m.info.announce 1 ++
  printList (ascii "announce-list") bracketed m.info.announceList 1 ++
  printList (ascii "url-list") (fun s => s ++ [44]) m.info.urlList 1 ++
  printString (ascii "(calculated) info-hash") (base64Url (sha1 m.info.infoDictRaw)) 1 ++
  ascii "}\n"

/-! ### The commands -/

/-- What a command leaves behind: its exit code, its output, and the errors it logged. -/
structure CmdOut where
  exit : Nat
  stdout : Bytes
  stderr : Bytes
  logged : List String

/-- `run` of the command `bencode` (bencode.go:25-47). `file` is what `os.Open` gives, then what `io.ReadAll` gives. `log.Fatal` logs and
ends the program with code 1; a panic ends it with code 2. The two lines that would print are comments (bencode.go:42-43). -/
def inspectCommand (file : Except String (Except String Bytes)) : CmdOut :=
  match file with
  | .error e => ⟨1, [], [], [e]⟩
  | .ok (.error e) => ⟨1, [], [], [e]⟩
  | .ok (.ok data) =>
    match (unmarshalMetainfo data).2 with
    | .err e => ⟨1, [], [], [e]⟩
    | .panic e => ⟨2, [], ascii e, []⟩
    | .ok => ⟨0, [], [], []⟩

/-- The command `download` when `runDownload` (download.go:49-84) ends before the download begins: the function made by `NewCmdRun`
(app.go:112-117) calls `printer.Fatal(1, "error with the app")`. `none`: the download begins. -/
def downloadCommand (r : Res Torrent) : Option CmdOut :=
  match r with
  | .err _ => some ⟨1, [], ascii "error with the app", []⟩
  | .panic e => some ⟨2, [], ascii e, []⟩
  | .ok _ => none

end Gotit
