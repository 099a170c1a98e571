import Verif.Model.Open
import Verif.Model.Peer
import Verif.Model.PeerRun
import Verif.Model.PiecesQueue
import Verif.Model.Handshake
import Verif.Model.Net
import Verif.Model.TrackerNew
import Verif.Model.Unmarshal
import Verif.Model.Builder
/-
  The unit tests of the repository, carried over to the model. They are tests, not proofs: they show that the model behaves like the
  code on the inputs its authors chose. Each example names the Go test it comes from. Not carried over: tests of errors of
  `SetReadDeadline` (the model assumes it does not fail) and the test on the file tears-of-steel.torrent.
-/
namespace Gotit.RepoTests
open Gotit

mutual
/-- `reflect.DeepEqual` on elements. -/
def same : Bencode → Bencode → Bool
  | .nil, .nil => true
  | .int a, .int b => a == b
  | .str a, .str b => a == b
  | .list p a r, .list q b s => p == q && sameList a b && r == s
  | .dict p a r, .dict q b s => p == q && sameEntries a b && r == s
  | _, _ => false
def sameList : List Bencode → List Bencode → Bool
  | [], [] => true
  | a :: as, b :: bs => same a b && sameList as bs
  | _, _ => false
def sameEntries : List (Bytes × Bencode) → List (Bytes × Bencode) → Bool
  | [], [] => true
  | (k, a) :: as, (l, b) :: bs => k == l && same a b && sameEntries as bs
  | _, _ => false
end

/-- Whether `Parse` of the text gives this element. -/
def parsesTo (s : String) (v : Bencode) : Bool :=
  match parse (ascii s) with
  | .ok w => same w v
  | _ => false

/-- Whether `Parse` of the text is an error. -/
def parseFails (s : String) : Bool :=
  match parse (ascii s) with
  | .err _ => true
  | _ => false

def str (s : String) : Bencode := .str (ascii s)

/-! ### pkg/bencode/parse_test.go: TestParse -/

example : parseFails "" = true := by decide +kernel
example : parsesTo "i45902e" (.int 45902) = true := by decide +kernel
example : parsesTo "5:hello" (str "hello") = true := by decide +kernel
example : parsesTo "li45902e5:helloe" (.list true [.int 45902, str "hello"] (ascii "li45902e5:helloe")) = true := by decide +kernel
example : parsesTo "d5:helloi45902e5:world2:mee" (.dict true [(ascii "hello", .int 45902), (ascii "world", str "me")]
    (ascii "d5:helloi45902e5:world2:mee")) = true := by decide +kernel
example : parseFails "6:hello" = true := by decide +kernel
example : parseFails "i45" = true := by decide +kernel
example : parseFails "li42ei22e" = true := by decide +kernel
example : parseFails "d5:firsti45" = true := by decide +kernel
example : parseFails "d2:firsti45e" = true := by decide +kernel

/-! ### pkg/bencode/elements_test.go: TestBencode_String, TestBencode_Encode, TestPrettyPrint (for the order of keys they expect) -/

example : (str "").toText = [] := by decide +kernel
example : (str "My string").toText = ascii "My string" := by decide +kernel
example : (Bencode.int 5).toText = ascii "5" := by decide +kernel
example : (Bencode.list false [.int 5, .nil] []).toText = ascii "[\n\t5,\n]" := by decide +kernel
example : (Bencode.dict false [(ascii "key", str "Value"), (ascii "data", .nil)] []).toText = ascii "{\n\tkey: Value,\n}" := by
  decide +kernel
example : (str "").encode = ascii "0:" := by decide +kernel
example : (str "My string").encode = ascii "9:My string" := by decide +kernel
example : (Bencode.int 123).encode = ascii "i123e" := by decide +kernel
example : (Bencode.list false [str "string", .int 1, .nil] []).encode = ascii "l6:stringi1ee" := by decide +kernel
example : (Bencode.dict false [(ascii "key", str "value"), (ascii "list", .list false [.int 12] []), (ascii "nil", .nil)] []).encode =
    ascii "d3:key5:value4:listli12eee" := by decide +kernel
example : (Bencode.list false [.dict false [(ascii "1", str "Value"), (ascii "2", .int 1),
      (ascii "3", .list false [str "string"] []), (ascii "4", .dict false [] [])] [], str "string"] []).toText =
    ascii "[\n\t{\n\t\t1: Value,\n\t\t2: 1,\n\t\t3: [\n\t\t\tstring,\n\t\t],\n\t\t4: {},\n\t},\n\tstring,\n]" := by decide +kernel

/-! ### pkg/bencode/tag_parser_test.go -/

/-- TestUnmarshal_TargetNotPointer, TestUnmarshal_TargetNotPointerStruct, with another document -/
example : (unmarshal (.struct torrentFileFields) (.struct (zeros torrentFileFields)) (ascii "d6:lengthi3e4:pathl1:xee")).2 =
    .err "bencode: pointer to struct expected as target" := by decide +kernel
example : (unmarshal (.slice .string) (.slice []) (ascii "d6:lengthi3e4:pathl1:xee")).2 =
    .err "bencode: pointer to struct expected as target" := by decide +kernel

mutual
theorem same_eq : (a b : Bencode) → same a b = true → a = b
  | .nil, b, h => by cases b <;> simp_all [same]
  | .int _, b, h => by cases b <;> simp_all [same]
  | .str _, b, h => by cases b <;> simp_all [same]
  | .list _ xs _, b, h => by
    cases b <;> simp [same] at h
    obtain ⟨⟨rfl, h⟩, rfl⟩ := h
    rw [sameList_eq xs _ h]
  | .dict _ es _, b, h => by
    cases b <;> simp [same] at h
    obtain ⟨⟨rfl, h⟩, rfl⟩ := h
    rw [sameEntries_eq es _ h]
theorem sameList_eq : (a b : List Bencode) → sameList a b = true → a = b
  | [], b, h => by cases b <;> simp_all [sameList]
  | x :: xs, b, h => by
    cases b <;> simp [sameList] at h
    rw [same_eq x _ h.1, sameList_eq xs _ h.2]
theorem sameEntries_eq : (a b : List (Bytes × Bencode)) → sameEntries a b = true → a = b
  | [], b, h => by cases b <;> simp_all [sameEntries]
  | (_, x) :: xs, b, h => by
    cases b <;> simp [sameEntries] at h
    obtain ⟨⟨rfl, h1⟩, h2⟩ := h
    rw [same_eq x _ h1, sameEntries_eq xs _ h2]
end

/-- What a parse that was computed gives. -/
theorem parse_eq {s : String} {v : Bencode} (h : parsesTo s v = true) : parse (ascii s) = .ok v := by
  unfold parsesTo at h
  split at h
  · rename_i w e; rw [e, same_eq _ _ h]
  · simp at h

theorem text_str (s : Bytes) : (Bencode.str s).toText = s := by simp [Bencode.toText, prettyPrint]

/-- TestUnmarshal_TypeError -/
example : (unmarshal (.ptr (.struct [fld "IntValue" "int" (.int 64)])) (.ptr (some (.struct [.int 0])))
    (Bencode.dict false [(ascii "int", .list false [str "string_value"] [])] []).encode).2 =
    .err "could not assign bencode value to target" := by
  have e : (Bencode.dict false [(ascii "int", .list false [str "string_value"] [])] []).encode = ascii "d3:intl12:string_valueee" := by
    decide +kernel
  have p := parse_eq (s := "d3:intl12:string_valueee")
    (v := .dict true [(ascii "int", .list true [str "string_value"] (ascii "l12:string_valuee"))] (ascii "d3:intl12:string_valueee"))
    (by decide +kernel)
  have i : (match parseInt0 (Bencode.list true [str "string_value"] (ascii "l12:string_valuee")).toText 64 with
    | .ok _ => false | .error _ => true) = true := by decide +kernel
  rw [e]
  simp only [unmarshal, p]
  generalize hl : Bencode.list true [str "string_value"] (ascii "l12:string_valuee") = l at i
  have hn : l.isNil = false := by rw [← hl]; rfl
  cases hi : parseInt0 l.toText 64 with
  | ok n => simp [hi] at i
  | error x =>
    simp [processTarget, fld, setFields, ascii, tagKey, tagOptional, splitComma, lookupKey, hn, setField.eq_def, setValue.eq_def, hi]

/-- The struct of TestUnmarshal_SupportedTypes, in three parts. -/
def supported1 : List ((Bytes × Bytes × Bool) × Ty) :=
  [fld "Uint8" "uint8" (.uint 8), fld "Uint16" "uint16" (.uint 16), fld "Uint32" "uint32" (.uint 32), fld "Uint64" "uint64" (.uint 64),
   fld "Int" "int" (.int 64), fld "Int8" "int8" (.int 8), fld "Int16" "int16" (.int 16), fld "Int32" "int32" (.int 32),
   fld "Int64" "int64" (.int 64)]

def supported2 : List ((Bytes × Bytes × Bool) × Ty) :=
  [fld "MapOfLists" "map_lists" (.map true (.slice .string)), fld "Slice" "string_list" (.slice .string),
   fld "Struct" "struct" (.struct [fld "InsideInt" "inside_int" (.int 64)]),
   fld "StructPointer" "struct_pointer" (.ptr (.struct [fld "InsideInt" "inside_int" (.int 64)])),
   fld "IntPointer" "int_pointer" (.ptr (.int 64))]

/-- Its document, in two parts. -/
def supportedDoc1 : Bencode :=
  .dict false [(ascii "uint8", .int 8), (ascii "uint16", .int 16), (ascii "uint32", .int 32), (ascii "uint64", .int 64),
    (ascii "int", .int 1), (ascii "int8", .int 8), (ascii "int16", .int 16), (ascii "int32", .int 32), (ascii "int64", .int 64)] []

def supportedDoc2 : Bencode :=
  .dict false [
    (ascii "map_lists", .dict false [(ascii "list", .list false [str "string list value"] [])] []),
    (ascii "string_list", .list false [str "first", str "second", str "third"] []),
    (ascii "struct", .dict false [(ascii "inside_int", .int 11)] []),
    (ascii "struct_pointer", .dict false [(ascii "inside_int", .int 12)] []), (ascii "int_pointer", .int 33)] []

theorem int_field (n : Int) (b : Nat) {m : Int} (h : (match parseInt0 (itoa n) b with | .ok k => decide (k = m) | .error _ => false) = true) :
    parseInt0 (Bencode.int n).toText b = .ok m := by
  simp only [Bencode.toText, prettyPrint]
  revert h
  cases parseInt0 (itoa n) b <;> simp

theorem uint_field (n : Int) (b : Nat) {m : Nat} (h : (match parseUint0 (itoa n) b with | .ok k => decide (k = m) | .error _ => false) = true) :
    parseUint0 (Bencode.int n).toText b = .ok m := by
  simp only [Bencode.toText, prettyPrint]
  revert h
  cases parseUint0 (itoa n) b <;> simp

/-- TestUnmarshal_SupportedTypes -/
example : unmarshal (.ptr (.struct supported1)) (.ptr (some (.struct (zeros supported1)))) supportedDoc1.encode =
    (.ptr (some (.struct [.uint 8, .uint 16, .uint 32, .uint 64, .int 1, .int 8, .int 16, .int 32, .int 64])), .ok) := by
  have e : supportedDoc1.encode =
    ascii "d5:uint8i8e6:uint16i16e6:uint32i32e6:uint64i64e3:inti1e4:int8i8e5:int16i16e5:int32i32e5:int64i64ee" := by decide +kernel
  have p := parse_eq (s := "d5:uint8i8e6:uint16i16e6:uint32i32e6:uint64i64e3:inti1e4:int8i8e5:int16i16e5:int32i32e5:int64i64ee")
    (v := .dict true [(ascii "uint8", .int 8), (ascii "uint16", .int 16), (ascii "uint32", .int 32), (ascii "uint64", .int 64),
    (ascii "int", .int 1), (ascii "int8", .int 8), (ascii "int16", .int 16), (ascii "int32", .int 32), (ascii "int64", .int 64)]
      (ascii "d5:uint8i8e6:uint16i16e6:uint32i32e6:uint64i64e3:inti1e4:int8i8e5:int16i16e5:int32i32e5:int64i64ee"))
    (by decide +kernel)
  have i1 := int_field 1 64 (m := 1) (by decide +kernel)
  have i2 := int_field 8 8 (m := 8) (by decide +kernel)
  have i3 := int_field 16 16 (m := 16) (by decide +kernel)
  have i4 := int_field 32 32 (m := 32) (by decide +kernel)
  have i5 := int_field 64 64 (m := 64) (by decide +kernel)
  have u2 := uint_field 8 8 (m := 8) (by decide +kernel)
  have u3 := uint_field 16 16 (m := 16) (by decide +kernel)
  have u4 := uint_field 32 32 (m := 32) (by decide +kernel)
  have u5 := uint_field 64 64 (m := 64) (by decide +kernel)
  rw [e]
  simp only [unmarshal, p]
  simp [processTarget, supported1, fld, setFields, ascii, tagKey, tagOptional, splitComma, lookupKey, Bencode.isNil, setField.eq_def,
    setValue.eq_def, zeros, zero, i1, i2, i3, i4, i5, u2, u3, u4, u5]

example : unmarshal (.ptr (.struct supported2)) (.ptr (some (.struct (zeros supported2)))) supportedDoc2.encode =
      (.ptr (some (.struct [.map [(ascii "list", .slice [.string (ascii "string list value")])],
        .slice [.string (ascii "first"), .string (ascii "second"), .string (ascii "third")], .struct [.int 11],
        .ptr (some (.struct [.int 12])), .ptr (some (.int 33))])), .ok) := by
  have e : supportedDoc2.encode =
    ascii "d9:map_listsd4:listl17:string list valueee11:string_listl5:first6:second5:thirde6:structd10:inside_inti11ee14:struct_pointerd10:inside_inti12ee11:int_pointeri33ee" := by decide +kernel
  have p := parse_eq (s := "d9:map_listsd4:listl17:string list valueee11:string_listl5:first6:second5:thirde6:structd10:inside_inti11ee14:struct_pointerd10:inside_inti12ee11:int_pointeri33ee")
    (v := .dict true [
    (ascii "map_lists", .dict true [(ascii "list", .list true [str "string list value"] (ascii "l17:string list valuee"))] (ascii "d4:listl17:string list valueee")),
    (ascii "string_list", .list true [str "first", str "second", str "third"] (ascii "l5:first6:second5:thirde")),
    (ascii "struct", .dict true [(ascii "inside_int", .int 11)] (ascii "d10:inside_inti11ee")),
    (ascii "struct_pointer", .dict true [(ascii "inside_int", .int 12)] (ascii "d10:inside_inti12ee")), (ascii "int_pointer", .int 33)]
      (ascii "d9:map_listsd4:listl17:string list valueee11:string_listl5:first6:second5:thirde6:structd10:inside_inti11ee14:struct_pointerd10:inside_inti12ee11:int_pointeri33ee"))
    (by decide +kernel)
  have i1 := int_field 11 64 (m := 11) (by decide +kernel)
  have i2 := int_field 12 64 (m := 12) (by decide +kernel)
  have i3 := int_field 33 64 (m := 33) (by decide +kernel)
  rw [e]
  simp only [unmarshal, p]
  simp [processTarget, supported2, fld, setFields, ascii, tagKey, tagOptional, splitComma, lookupKey, Bencode.isNil, setField.eq_def,
    setValue.eq_def, zeros, zero, i1, i2, i3, str, setEach, setEntries, putMap, text_str]

/-! ### pkg/tracker/tracker_test.go: TestNewTracker. Whatever the rest of the URL parses to and whatever name can be reached. -/

example (h : Bytes) : trackerNew (fun _ _ _ => some h) (fun _ => true) (ascii "http://www.announcer.com:8090/annunce") ≠ .err := by
  have : trackerNew (fun _ _ _ => some h) (fun _ => true) (ascii "http://www.announcer.com:8090/annunce") =
    .http (ascii "http://www.announcer.com:8090/annunce") := by rfl
  rw [this]; simp
example (h : Bytes) : trackerNew (fun _ _ _ => some h) (fun _ => true) (ascii "https://www.announcer.com:8090/annunce") ≠ .err := by
  have : trackerNew (fun _ _ _ => some h) (fun _ => true) (ascii "https://www.announcer.com:8090/annunce") =
    .http (ascii "https://www.announcer.com:8090/annunce") := by rfl
  rw [this]; simp
example (h : Bytes) : trackerNew (fun _ _ _ => some h) (fun _ => true) (ascii "udp://tracker.leechers-paradise.org:6969") ≠ .err := by
  have : trackerNew (fun _ _ _ => some h) (fun _ => true) (ascii "udp://tracker.leechers-paradise.org:6969") = .udp h := by rfl
  rw [this]; simp
example (rest : Bytes → Bytes → Bytes → Option Bytes) (dial : Bytes → Bool) :
    trackerNew rest dial (ascii "tcp://tracker.leechers-paradise.org:6969") = .err := by
  have : trackerNew (fun _ _ _ => some []) dial (ascii "tcp://tracker.leechers-paradise.org:6969") = .err := by rfl
  cases h : rest (ascii "tcp") (ascii "//tracker.leechers-paradise.org:6969") [] with
  | none =>
    have e : urlParse rest (ascii "tcp://tracker.leechers-paradise.org:6969") =
      (rest (ascii "tcp") (ascii "//tracker.leechers-paradise.org:6969") []).map fun h => { scheme := ascii "tcp", host := h } := by rfl
    rw [trackerNew, e, h]; rfl
  | some x =>
    have e : urlParse rest (ascii "tcp://tracker.leechers-paradise.org:6969") =
      (rest (ascii "tcp") (ascii "//tracker.leechers-paradise.org:6969") []).map fun h => { scheme := ascii "tcp", host := h } := by rfl
    rw [trackerNew, e, h]; rfl

/-! ### pkg/peer/peer_test.go -/

/-- `validHandshake` -/
def validHandshake (hash peerId : Bytes) : Bytes := 19 :: (ascii "BitTorrent protocol" ++ (putBE 8 0 ++ (hash ++ peerId)))

def rep (b : UInt8) : Bytes := List.replicate 20 b

/-- TestIsHandshakeValid_… -/
example : isHandshakeValid (validHandshake (rep 0xAB) (rep 0xCD)) (rep 0xAB) = true := by decide +kernel
example : isHandshakeValid [1, 2, 3] [] = false := by decide +kernel
example : isHandshakeValid ((validHandshake (rep 1) (rep 2)).set 0 18) (rep 1) = false := by decide +kernel
example : isHandshakeValid ((validHandshake (rep 1) (rep 2)).set 1 88) (rep 1) = false := by decide +kernel
example : isHandshakeValid (validHandshake (rep 1) (rep 2)) (rep 0xFF) = false := by decide +kernel

/-- TestCreateHandshake_…, for every client id of the right length in the model's sense -/
example : (createHandshake (rep 0xAB) (rep 45)).length = 68 := by decide +kernel
example : (createHandshake (rep 0) (rep 45)).head? = some 19 := by decide +kernel
example : ((createHandshake (rep 0) (rep 45)).take 20).drop 1 = ascii "BitTorrent protocol" := by decide +kernel
example : ((createHandshake (rep 0xAB) (rep 45)).take 48).drop 28 = rep 0xAB := by decide +kernel
example : ((createHandshake (rep 0) (rep 45)).take 68).drop 48 = rep 45 := by decide +kernel
example : isHandshakeValid (createHandshake (rep 0xDE) (rep 45)) (rep 0xDE) = true := by decide +kernel

/-- TestCreateClientId -/
example : (createClientId (List.replicate 12 7)).length = 20 ∧ (createClientId (List.replicate 12 7)).take 8 = ascii "-GO0100-" := by
  decide +kernel

/-- `makePeer`, with its bit set of 8 -/
def testPeer : Peer := { bitset := .new 8, peerChoked := true, peerInterested := false, clientChoked := true, clientInterested := false, blockIdx := 0, pieceIdx := 0, blockNum := 0 }

/-- A torrent of one piece whose hash `SHA-1` here is the identity on what it is given. -/
def testTorrent (hash : Bytes) : Torrent :=
  { trackers := [], hash := [], length := 8, pieceLength := 8, pieces := [⟨0, hash⟩], piecesNum := 1, files := [], osFiles := [], name := [],
    isDirectory := false, numOfBlocks := 1, requested := .new 1, downloaded := .new 1 }

/-- `handlePeerMessage(NewPeerMessage(payload))`, observed by `f`. -/
def handled {α : Type} (t : Torrent) (p : Peer) (payload : Bytes) (f : Option PeerMessage × Peer → α) : Option α :=
  match (newPeerMessage payload).bind (p.handlePeerMessage id t) with
  | .ok x => some (f x)
  | _ => none

/-- TestHandlePeerMessage_… -/
example : ∀ t, testPeer.handlePeerMessage id t keepaliveMessage = .ok (none, testPeer) := fun _ => rfl
example : handled (testTorrent []) { testPeer with clientChoked := false } [chokeType] (·.2.clientChoked) = some true := by decide +kernel
example : handled (testTorrent []) { testPeer with clientChoked := true } [unchokeType] (·.2.clientChoked) = some false := by decide +kernel
example : handled (testTorrent []) { testPeer with peerInterested := false } [interestedType] (·.2.peerInterested) = some true := by decide +kernel
example : handled (testTorrent []) { testPeer with peerInterested := true } [notInterestedType] (·.2.peerInterested) = some false := by decide +kernel
example : handled (testTorrent []) { testPeer with bitset := .new 256 } (haveType :: putBE 4 7) (·.2.bitset.test 7) = some true := by decide +kernel
example : handled (testTorrent []) testPeer [bitfieldType, 0x80] (·.2.bitset.test 63) = some true := by decide +kernel
example : handled (testTorrent (ascii "testdata")) testPeer (pieceType :: (putBE 4 0 ++ putBE 4 0 ++ ascii "testdata")) (·.1.isSome) =
    some true := by decide +kernel
example : handled (testTorrent (ascii "other")) testPeer (pieceType :: (putBE 4 0 ++ putBE 4 0 ++ List.replicate 8 0)) (·.1.isSome) =
    some false := by decide +kernel

/-- TestNewPeer_Initialization -/
example : (newPeer { testTorrent [] with pieceLength := blockLength * 4, piecesNum := 17 }).blockIdx = 0 ∧
    (newPeer { testTorrent [] with pieceLength := blockLength * 4, piecesNum := 17 }).blockNum = 4 ∧
    (newPeer { testTorrent [] with pieceLength := blockLength * 4, piecesNum := 17 }).bitset.len = 17 := by decide +kernel

/-- TestNextRequestMessage_… -/
example : (testPeer.nextRequestMessage none none).1 = none := by decide +kernel
example : (testPeer.nextRequestMessage none (some 3)).1.map (fun m => (m.index, m.offset)) = some (3, 0) := by decide +kernel
example : (({ testPeer with blockNum := 4 } : Peer).nextRequestMessage none (some 0)).2.1.blockIdx = 1 := by decide +kernel
example : (({ testPeer with blockNum := 4, pieceIdx := 1, blockIdx := 1 } : Peer).nextRequestMessage none (some 1)).1.map (fun m => m.offset) =
    some blockLength := by decide +kernel
example : (testPeer.nextRequestMessage (some (requestMessage 2 0 blockLength)) (some 5)).1.map (fun m => m.index) = some 2 := by decide +kernel
example : (({ testPeer with blockNum := 2, blockIdx := 2 } : Peer).nextRequestMessage none (some 7)).1.map (fun m => m.index) = some 7 ∧
    (({ testPeer with blockNum := 2, blockIdx := 2 } : Peer).nextRequestMessage none (some 7)).2.1.blockIdx - 1 = 0 := by decide +kernel

/-! ### pkg/gotitnet/connection_test.go -/

/-- Whether a read returned these bytes. -/
def got (r : Res Bytes × List Ev) (b : Bytes) : Bool :=
  match r.1 with
  | .ok x => x == b
  | _ => false

/-- `wirePeerMessage` -/
def wire (body : Bytes) : Bytes := putBE 4 body.length ++ body

example : got (readPeerMessage [.data (wire [unchokeType])]) [unchokeType] = true := by decide +kernel
example : got (readPeerMessage [.data (putBE 4 0)]) [] = true := by decide +kernel
example : got (readPeerMessage [.data (wire (pieceType :: (putBE 4 3 ++ putBE 4 0 ++ ascii "testdata")))])
    (pieceType :: (putBE 4 3 ++ putBE 4 0 ++ ascii "testdata")) = true := by decide +kernel
example : got (readPeerHandshake [.data (19 :: (ascii "BitTorrent protocol" ++ List.replicate 48 0))])
    (19 :: (ascii "BitTorrent protocol" ++ List.replicate 48 0)) = true := by decide +kernel
example : (signalMessage unchokeType).wire.length ≥ 5 ∧ (signalMessage unchokeType).wire[4]? = some unchokeType := by decide +kernel
example : got (readAll [] [.data (ascii "all the tracker data"), .eof]) (ascii "all the tracker data") = true := by decide +kernel
example : got (readUdpHandshake [.data [0, 1, 2, 3, 4, 5, 6, 7, 8, 9, 10, 11, 12, 13, 14, 15]])
    [0, 1, 2, 3, 4, 5, 6, 7, 8, 9, 10, 11, 12, 13, 14, 15] = true := by decide +kernel

/-! ### pkg/torrent/torrent_test.go -/

/-- A file system in which everything can be created. -/
def okOs : Os := { mkdirNotExist := fun _ => false, createError := fun _ => none }

/-- The open files after `initDownloadDir`. -/
def created (dir : Bool) (name : String) (files : List TorrentFile) : Option (List Bytes) :=
  match (initDownloadDir okOs (ascii "tmp") (ascii name) dir files (fun _ => [])).1 with
  | .ok ps => some ps
  | _ => none

/-- TestTorrent_createTorrentFiles -/
example : created true "torrent" [⟨[ascii "1.txt"], 1⟩, ⟨[ascii "2.txt"], 2⟩] =
    some [ascii "tmp/torrent/1.txt", ascii "tmp/torrent/2.txt"] := by decide +kernel
example : created false "test.txt" [⟨[ascii "1.txt"], 1⟩, ⟨[ascii "2.txt"], 2⟩] = some [ascii "tmp/test.txt"] := by decide +kernel

/-- TestEmptyBitset_SizeEqualsPiecesNum -/
example : (bitsetNew 42).len = 42 := by decide +kernel

/-- `tor.downloaded` with these bits set, one after the other -/
def bits (n : Nat) (set : List Nat) : BitSet := set.foldl BitSet.set (.new n)

/-- TestDone_… -/
example : (bits 10 []).all = false := by decide +kernel
example : (bits 4 [0, 1]).all = false := by decide +kernel
example : (bits 5 [0, 1, 2, 3, 4]).all = true := by decide +kernel
example : (bits 0 []).all = true := by decide +kernel

/-- TestSetDownloaded_… -/
example : (downMethods.step (.setDownloaded 3) () (.new 8)).1.test 3 = true := by decide +kernel
example : [0, 1, 2, 4, 5, 6, 7].all (fun i => !(downMethods.step (.setDownloaded 3) () (.new 8)).1.test i) = true := by decide +kernel
example : (bits 3 [0, 1, 2]).all = true := by decide +kernel

/-- A call of `Next` that runs alone, at most `n` steps. -/
def next (have_ : BitSet) : Nat → NextLoc → BitSet → BitSet × Option Nat
  | 0, _, s => (s, none)
  | n + 1, l, s =>
    match nextMethod.step have_ l s with
    | (s', .inl l') => next have_ n l' s'
    | (s', .inr r) => (s', r)

/-- TestNext_… -/
example : (next (bits 4 []) 20 (.find 0) (.new 4)).2 = none := by decide +kernel
example : (next (bits 4 [2]) 20 (.find 0) (.new 4)).2 = some 2 := by decide +kernel
example : (next (bits 4 [1]) 20 (.find 0) (.new 4)).1.test 1 = true := by decide +kernel
example : (next (bits 4 [0, 1]) 20 (.find 0) (bits 4 [0])).2 = some 1 := by decide +kernel
example : (next (bits 3 [0, 1, 2]) 20 (.find 0) (bits 3 [0, 1, 2])).2 = none := by decide +kernel
example : (next (bits 5 [4]) 20 (.find 0) (.new 5)).2 = some 4 ∧ (next (bits 5 [4]) 20 (.find 0) (.new 5)).1.test 4 = true := by
  decide +kernel
example : (next (bits 4 [0, 1]) 20 (.find 0) (.new 0)).2 = none := by decide +kernel

/-- TestCheckPiece_…, with any hash function that gives 20 bytes and tells these apart -/
example (sha1 : Bytes → Bytes) (h : sha1 (ascii "corrupted!!") ≠ sha1 (ascii "hello world")) :
    (checkPiece sha1 (testTorrent (sha1 (ascii "hello world"))) (ascii "hello world") 0 = .ok true) ∧
    (checkPiece sha1 (testTorrent (sha1 (ascii "hello world"))) (ascii "corrupted!!") 0 = .ok false) ∧
    (checkPiece sha1 (testTorrent (sha1 [])) [] 0 = .ok true) := by
  simp [checkPiece, testTorrent, Ne.symm h]

/-- `makePieceMsg` -/
def pieceMsg (index offset : Nat) (data : Bytes) : Res PeerMessage := newPeerMessage (pieceType :: (putBE 4 index ++ putBE 4 offset ++ data))

/-- What `WritePiece` leaves in the files after one message, and the bits of downloaded pieces. -/
def written (t : Torrent) (m : Res PeerMessage) : Option (List Bytes × Bool) :=
  match m.bind fun m => writePieces t [m] { disk := fun _ => [], downloaded := t.downloaded, added := 0 } with
  | .ok w => some (t.osFiles.map w.disk, w.downloaded.test 0)
  | _ => none

/-- A torrent of several files. -/
def multi (lengths : List Int) (pieceLength : Int) : Torrent :=
  { testTorrent [] with isDirectory := true, pieceLength := pieceLength, files := lengths.map fun l => ⟨[ascii "f"], l⟩,
                        osFiles := (List.range lengths.length).map fun i => [UInt8.ofNat (97 + i)] }

/-- TestWritePiece_… -/
example : written { testTorrent [] with pieceLength := 100, osFiles := [ascii "single.bin"] } (pieceMsg 0 0 (ascii "hello torrent")) =
    some ([ascii "hello torrent"], false) := by decide +kernel
example : written (multi [10, 10] 10) (pieceMsg 0 0 (ascii "fits")) = some ([ascii "fits", []], false) := by decide +kernel
example : written (multi [5, 10] 5) (pieceMsg 1 0 (ascii "bbb")) = some ([[], ascii "bbb"], false) := by decide +kernel
example : written (multi [3, 3, 3] 9) (pieceMsg 0 0 (ascii "abcdefghi")) = some ([ascii "abc", ascii "def", ascii "ghi"], true) := by
  decide +kernel
example : written (multi [5, 10] 15) (pieceMsg 0 0 (ascii "12345678")) = some ([ascii "12345", ascii "678"], false) := by decide +kernel
example : (written { testTorrent [] with pieceLength := 10, osFiles := [ascii "last.bin"] } (pieceMsg 0 7 (ascii "end"))).map (·.2) =
    some true := by decide +kernel

end Gotit.RepoTests
