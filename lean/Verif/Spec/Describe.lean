import Verif.Spec.Text
import Verif.Spec.StatusLine
import Verif.Model.Describe
/-
  C104, C105, C106: reading the description of a torrent; what the commands say.
-/
namespace Gotit.Spec
open Gotit

/-- What follows `p` in a line beginning with `p`. -/
def afterPrefix (p l : Bytes) : Option Bytes := if p.isPrefixOf l then some (l.drop p.length) else none

/-- The lines before and after the line that ends the part about the info dictionary. -/
def infoPart (text : Bytes) : List Bytes := (splitAt 10 text).takeWhile (· ≠ ascii "\t}")
def outerPart (text : Bytes) : List Bytes := (splitAt 10 text).dropWhile (· ≠ ascii "\t}")

/-- The value of a key: what follows it in the first line that begins with it; nothing if there is none. -/
def valueIn (ls : List Bytes) (key : String) : Bytes := (ls.findSome? (afterPrefix (ascii key))).getD []

/-- The entries of a list: from the lines after its beginning to the closing bracket, what follows the indentation. -/
def entriesIn (ls : List Bytes) (first last indent : String) : List Bytes :=
  (((ls.dropWhile (· ≠ ascii first)).drop 1).takeWhile (· ≠ ascii last)).filterMap (afterPrefix (ascii indent))

/-- No line break. -/
def OneLine (s : Bytes) : Prop := ∀ c ∈ s, c ≠ 10

/-- All texts of the torrent are without line breaks. -/
def Tidy (date : Int → Bytes) (m : MetaText) : Prop :=
  OneLine m.info.name ∧ OneLine m.comment ∧ OneLine m.createdBy ∧ OneLine (date m.creationDate) ∧ OneLine m.info.announce ∧
  (∀ f ∈ m.info.files, ∀ c ∈ f.path, OneLine c) ∧ (∀ t ∈ m.info.announceList, ∀ u ∈ t, OneLine u) ∧ (∀ u ∈ m.info.urlList, OneLine u)

/-- The value of a base64 digit (RFC 4648, section 5). -/
def sextet (c : UInt8) : Option Nat :=
  if 65 ≤ c.toNat ∧ c.toNat ≤ 90 then some (c.toNat - 65)
  else if 97 ≤ c.toNat ∧ c.toNat ≤ 122 then some (c.toNat - 71)
  else if 48 ≤ c.toNat ∧ c.toNat ≤ 57 then some (c.toNat + 4)
  else if c = 45 then some 62
  else if c = 95 then some 63
  else none

/-- Decoding of base64 with padding, URL alphabet. -/
def base64Decode : Bytes → Option Bytes
  | [] => some []
  | c1 :: c2 :: c3 :: c4 :: rest =>
    match sextet c1, sextet c2 with
    | some x1, some x2 =>
      if c3 = 61 then (if c4 = 61 ∧ rest = [] then some [UInt8.ofNat (x1 * 4 + x2 / 16)] else none)
      else match sextet c3 with
        | none => none
        | some x3 =>
          if c4 = 61 then (if rest = [] then some [UInt8.ofNat (x1 * 4 + x2 / 16), UInt8.ofNat (x2 % 16 * 16 + x3 / 4)] else none)
          else match sextet c4 with
            | none => none
            | some x4 => (base64Decode rest).map fun r =>
                UInt8.ofNat (x1 * 4 + x2 / 16) :: UInt8.ofNat (x2 % 16 * 16 + x3 / 4) :: UInt8.ofNat (x3 % 4 * 64 + x4) :: r
    | _, _ => none
  | _ => none

/-- The number of bytes of the torrent's content. -/
def describedSize (m : MetaText) : Int := if m.info.files = [] then m.info.infoLength else (m.info.files.map TorrentFile.length).sum

/-- C104: the description says what the torrent is: name, size, tracker and comment can be read from it, and there is a date only if the
torrent has one. -/
def DescribesIt : Prop :=
  ∀ (sha1 : Bytes → Bytes) (date : Int → Bytes) (m : MetaText), (∀ n, OneLine (date n)) →
    let text := describe sha1 date m
    valueIn (infoPart text) "\t\tname: " = m.info.name ∧ valueIn (outerPart text) "\tcomment: " = m.comment ∧
    valueIn (outerPart text) "\tannounce: " = m.info.announce ∧
    (0 ≤ describedSize m → describedSize m < 2 ^ 53 → SaysSize 0 (describedSize m).toNat (valueIn (infoPart text) "\t\tlength: ")) ∧
    (m.creationDate = 0 → valueIn (outerPart text) "\tcreation-date: " = [])

/-- What can be read from the description of a torrent: every field that is printed, under its key. -/
structure ReadsAs (sha1 : Bytes → Bytes) (date : Int → Bytes) (m : MetaText) (text : Bytes) : Prop where
  name : valueIn (infoPart text) "\t\tname: " = m.info.name
  length : 0 ≤ m.info.infoLength → m.info.infoLength < 2 ^ 63 → SaysSize 1 m.info.infoLength.toNat (valueIn (infoPart text) "\t\tlength: ")
  noPieceLength : m.info.pieceLength = 0 → valueIn (infoPart text) "\t\tpiece-length: " = []
  pieceLength : 0 < m.info.pieceLength →
    IsDigits (valueIn (infoPart text) "\t\tpiece-length: ") ∧ (decimal (valueIn (infoPart text) "\t\tpiece-length: ") : Int) = m.info.pieceLength
  filesNum : (entriesIn (infoPart text) "\t\tfiles: [" "\t\t]" "\t\t\t").length = m.info.files.length
  files : ∀ (i : Nat) (f : TorrentFile), m.info.files[i]? = some f → 0 ≤ f.length → f.length < 2 ^ 63 → ∃ size, SaysSize 1 f.length.toNat size ∧
    (entriesIn (infoPart text) "\t\tfiles: [" "\t\t]" "\t\t\t")[i]? =
      some (ascii "[path: " ++ List.intercalate [47] f.path ++ ascii ", size: " ++ size ++ ascii "],")
  comment : valueIn (outerPart text) "\tcomment: " = m.comment
  createdBy : valueIn (outerPart text) "\tcreated-by: " = m.createdBy
  creationDate : valueIn (outerPart text) "\tcreation-date: " = date m.creationDate
  announce : valueIn (outerPart text) "\tannounce: " = m.info.announce
  announceList : entriesIn (outerPart text) "\tannounce-list: [" "\t]" "\t\t" =
    m.info.announceList.map fun tier => ascii "[" ++ List.intercalate [32] tier ++ ascii "]"
  urlList : entriesIn (outerPart text) "\turl-list: [" "\t]" "\t\t" = m.info.urlList.map fun u => u ++ ascii ","
  infoHash : base64Decode (valueIn (outerPart text) "\t(calculated) info-hash: ") = some (sha1 m.info.infoDictRaw)

/-- C105: for a torrent file that can be read, the command prints its description. -/
def InspectPrints : Prop :=
  ∀ (sha1 : Bytes → Bytes) (date : Int → Bytes) (data : Bytes), (unmarshalMetainfo data).2 = .ok →
    ∃ pre post, (inspectCommand (.ok (.ok data))).stdout = pre ++ describe sha1 date (metaTextOf (unmarshalMetainfo data).1) ++ post

/-- The reason is shown: it is logged, or part of what is written to the standard error stream. -/
def SaysWhy (reason : String) (o : CmdOut) : Prop := reason ∈ o.logged ∨ ∃ pre post, o.stderr = pre ++ ascii reason ++ post

/-- C106: a download that cannot be started says why. -/
def DownloadSaysWhy : Prop := ∀ e o, downloadCommand (.err e) = some o → SaysWhy e o

end Gotit.Spec
