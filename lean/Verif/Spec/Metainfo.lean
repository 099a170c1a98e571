import Verif.Model.Torrent
import Verif.Spec.Bencode
/-
  What a torrent file says according to BEP 3 and BEP 12 (announce-list) and BEP 19 (url-list): a relation between a bencoded
  dictionary and the data it carries. Dictionaries may have further keys and any order of entries.
-/
namespace Gotit.Spec
open Gotit

/-- Two lists of the same length, related element by element. -/
inductive Each {α β : Type} (P : α → β → Prop) : List α → List β → Prop
  | nil : Each P [] []
  | cons {a b as bs} : P a b → Each P as bs → Each P (a :: as) (b :: bs)

/-- A list of strings. -/
def IsStrings (v : Bencode) (l : List Bytes) : Prop := ∃ p r, v = .list p (l.map .str) r

/-- A list of lists of strings. -/
def IsTiers (v : Bencode) (l : List (List Bytes)) : Prop := ∃ p vs r, v = .list p vs r ∧ Each IsStrings vs l

/-- No entry for `k`. -/
def Lacks (kvs : List (Bytes × Bencode)) (k : String) : Prop := ∀ v, (ascii k, v) ∉ kvs

/-- A file: its length and its path. -/
def IsFile (v : Bencode) (f : TorrentFile) : Prop :=
  ∃ p kvs r, v = .dict p kvs r ∧ (∃ x, (ascii "path", x) ∈ kvs ∧ IsStrings x f.path) ∧ (ascii "length", .int f.length) ∈ kvs

/-- The info dictionary of a torrent: name, piece length, piece hashes, and either the length of the one file or the list of
files. -/
def IsInfo (v : Bencode) (m : Metainfo) : Prop :=
  ∃ p kvs r, v = .dict p kvs r ∧ (ascii "name", .str m.name) ∈ kvs ∧
    (ascii "piece length", .int m.pieceLength) ∈ kvs ∧ (ascii "pieces", .str m.pieces) ∈ kvs ∧
    (((ascii "length", .int m.infoLength) ∈ kvs ∧ Lacks kvs "files" ∧ m.files = []) ∨
     (Lacks kvs "length" ∧ m.infoLength = 0 ∧
       ∃ q vs s, (ascii "files", .list q vs s) ∈ kvs ∧ Each IsFile vs m.files))

/-- A torrent file. The creation date, if any, is a number; other keys are free. -/
def IsMetainfo (v : Bencode) (m : Metainfo) : Prop :=
  ∃ p kvs r, v = .dict p kvs r ∧ (ascii "announce", .str m.announce) ∈ kvs ∧
    ((∃ x, (ascii "announce-list", x) ∈ kvs ∧ IsTiers x m.announceList) ∨ (Lacks kvs "announce-list" ∧ m.announceList = [])) ∧
    ((∃ x, (ascii "url-list", x) ∈ kvs ∧ IsStrings x m.urlList) ∨ (Lacks kvs "url-list" ∧ m.urlList = [])) ∧
    (∃ x, (ascii "info", x) ∈ kvs ∧ IsInfo x m ∧ m.infoDictRaw = x.encode) ∧
    (Lacks kvs "creation date" ∨ ∃ n, (ascii "creation date", .int n) ∈ kvs)

end Gotit.Spec
