import Verif.Spec.Path
import Verif.Spec.Content
import Verif.Model.Bencode
/-
  What people publish with BitTorrent, and the torrent file made from it as BEP 3 tells.
-/
namespace Gotit.Spec
open Gotit

/-- One file, or a directory with files, each with its path below the directory. -/
inductive Share
  | file (name content : Bytes)
  | dir (name : Bytes) (files : List (List Bytes × Bytes))

/-- "For the purposes of the other keys, the multi-file case is treated as only having a single file by concatenating the files in the
order they appear in the files list." -/
def Share.content : Share → Bytes
  | .file _ c => c
  | .dir _ fs => fs.flatMap (·.2)

def Share.name : Share → Bytes
  | .file n _ => n
  | .dir n _ => n

/-- The pieces are all of the same length except for the last one, which may be shorter. -/
def pieceCount (size pl : Nat) : Nat := (size + pl - 1) / pl

/-- The SHA-1 hashes of the pieces, one after the other. -/
def hashesOf (sha1 : Bytes → Bytes) (content : Bytes) (pl : Nat) : Bytes :=
  (List.range (pieceCount content.length pl)).flatMap (fun i => sha1 (pieceOf content pl i))

/-- An entry of `files`: "length - The length of the file, in bytes. path - A list of UTF-8 encoded strings corresponding to subdirectory
names, the last of which is the actual file name". -/
def fileEntry (f : List Bytes × Bytes) : Bencode :=
  .dict true [(ascii "length", .int f.2.length), (ascii "path", .list true (f.1.map .str) [])] []

/-- The info dictionary. Keys are in order. -/
def Share.info (sha1 : Bytes → Bytes) (pl : Nat) : Share → Bencode
  | .file n c => .dict true [(ascii "length", .int c.length), (ascii "name", .str n), (ascii "piece length", .int pl),
      (ascii "pieces", .str (hashesOf sha1 c pl))] []
  | .dir n fs => .dict true [(ascii "files", .list true (fs.map fileEntry) []), (ascii "name", .str n), (ascii "piece length", .int pl),
      (ascii "pieces", .str (hashesOf sha1 (fs.flatMap (·.2)) pl))] []

/-- The torrent file, with the URL of the tracker. -/
def Share.torrent (sha1 : Bytes → Bytes) (pl : Nat) (url : Bytes) (s : Share) : Bencode :=
  .dict true [(ascii "announce", .str url), (ascii "info", s.info sha1 pl)] []

/-- The path `p` leads to what lies below `root` under the given names. -/
def PathTo (root : Bytes) (names : List Bytes) (p : Bytes) : Prop :=
  absolute p = absolute root ∧ place p = { place root with names := (place root).names ++ names }

/-- The file or the directory is in `root`, byte for byte. -/
def Share.OnDisk (disk : Disk) (root : Bytes) : Share → Prop
  | .file n c => ∃ p, PathTo root [n] p ∧ disk p = c
  | .dir n fs => ∀ f ∈ fs, ∃ p, PathTo root (n :: f.1) p ∧ disk p = f.2

/-- The names are names, and differ. -/
def Share.Named : Share → Prop
  | .file n _ => PlainName n
  | .dir n fs => PlainName n ∧ (∀ f ∈ fs, f.1 ≠ [] ∧ ∀ c ∈ f.1, PlainName c) ∧ (fs.map (·.1)).Nodup

/-- There are no directories inside. -/
def Share.Flat : Share → Prop
  | .file _ _ => True
  | .dir _ fs => ∀ f ∈ fs, f.1.length = 1

/-- Nothing is larger than what is common: up to 2 PiB, pieces up to 4 GiB and up to 2^32 of them, names up to 2^32 bytes. -/
structure Share.Sized (pl : Nat) (url : Bytes) (s : Share) : Prop where
  some : s.content ≠ []
  size : s.content.length ≤ 2 ^ 51
  piece : 0 < pl ∧ pl + 9 < 2 ^ 32
  count : pieceCount s.content.length pl ≤ 2 ^ 32
  url : url.length ≤ 2 ^ 32
  name : s.name.length ≤ 2 ^ 32
  names : ∀ n fs, s = .dir n fs → ∀ f ∈ fs, ∀ c ∈ f.1, c.length ≤ 2 ^ 32

end Gotit.Spec
