import Verif.Spec.HttpTracker
import Verif.Lemmas.Unmarshal
import Verif.Lemmas.ParseTop
namespace Gotit
open Spec

theorem setField_peer (v : Bencode) :
    (∃ ip port, peerText v = some (ip, port) ∧
      setField (.struct announcePeerFields) (zero (.struct announcePeerFields)) v =
        (.struct [.string ip, .string port], .ok)) ∨
    (peerText v = none ∧
      ∃ x e, setField (.struct announcePeerFields) (zero (.struct announcePeerFields)) v = (x, .err e)) := by
  cases v with
  | dict p kvs raw =>
    have k1 : tagKey (ascii "ip") = ascii "ip" := by decide
    have k2 : tagKey (ascii "port") = ascii "port" := by decide
    have o1 : tagOptional (ascii "ip") = false := by decide
    have o2 : tagOptional (ascii "port") = false := by decide
    rw [setField, setValue.eq_def]
    simp only [zero, announcePeerFields, fld, zeros]
    rw [setFields_cons_active _ _ _ _ (by decide), k1, o1]
    simp only [List.headD_cons, List.tail_cons]
    rw [setFields_cons_active _ _ _ _ (by decide), k2, o2]
    simp only [List.headD_cons, List.tail_cons]
    have hs : ∀ o v, setField .string o v = (.string v.toText, .ok) := by intro o v; rw [setField, setValue]
    simp only [hs, peerText]
    cases h1 : lookupKey (ascii "ip") kvs <;> cases h2 : lookupKey (ascii "port") kvs <;>
      simp [Bencode.isNil, setFields]
  | _ =>
    right
    refine ⟨rfl, ?_⟩
    rw [setField, setValue.eq_def]
    exact ⟨_, _, rfl⟩

/-- The loop over the entries of a peer list. -/
theorem setEach_peers (vs : List Bencode) :
    (∃ ps, peerTexts vs = some ps ∧
      setEach (fun x => setField (.struct announcePeerFields) (zero (.struct announcePeerFields)) x) vs =
        (ps.map (fun p => .struct [.string p.1, .string p.2]), .ok)) ∨
    (peerTexts vs = none ∧
      ∃ x e, setEach (fun x => setField (.struct announcePeerFields) (zero (.struct announcePeerFields)) x) vs = (x, .err e)) := by
  induction vs with
  | nil => left; exact ⟨[], rfl, rfl⟩
  | cons v vs ih =>
    rw [setEach]
    rcases setField_peer v with ⟨ip, port, h1, h2⟩ | ⟨h1, x, e, h2⟩
    · rw [h2]
      simp only
      rcases ih with ⟨ps, h3, h4⟩ | ⟨h3, y, e, h4⟩
      · left; rw [h4]; exact ⟨(ip, port) :: ps, by simp [peerTexts, h1, h3], rfl⟩
      · right; rw [h4]; exact ⟨by simp [peerTexts, h1, h3], _, e, rfl⟩
    · right
      rw [h2]
      exact ⟨by simp [peerTexts, h1], _, e, rfl⟩

/-- The `peers` field as a list. -/
theorem setField_peers (old : GoVal) (v : Bencode) :
    (∃ p vs raw ps, v = .list p vs raw ∧ peerTexts vs = some ps ∧
      setField (.slice (.struct announcePeerFields)) old v =
        (.slice (ps.map (fun p => .struct [.string p.1, .string p.2])), .ok)) ∨
    ((∀ p vs raw ps, v = .list p vs raw → peerTexts vs ≠ some ps) ∧
      ∃ e, setField (.slice (.struct announcePeerFields)) old v = (old, .err e)) := by
  cases v with
  | list p vs raw =>
    rw [setField, setValue.eq_def]
    simp only
    rcases setEach_peers vs with ⟨ps, h1, h2⟩ | ⟨h1, x, e, h2⟩
    · left; rw [h2]; exact ⟨p, vs, raw, ps, rfl, h1, rfl⟩
    · right
      rw [h2]
      refine ⟨?_, e, rfl⟩
      intro p' vs' raw' ps' he
      injection he with _ e2 _
      subst e2
      rw [h1]; simp
  | _ =>
    right
    refine ⟨by simp, ?_⟩
    rw [setField, setValue.eq_def]
    exact ⟨_, rfl⟩

/-- What `Unmarshal` makes of a dictionary response. -/
theorem unmarshal_response (p : Bool) (kvs : List (Bytes × Bencode)) (raw : Bytes) :
    let r := setFields announceResponseFields (zeros announceResponseFields) (.dict p kvs raw)
    (∃ e, r.2 = .err e) ∨
    (∃ n, r.2 = .ok ∧ optInt (lookupKey (ascii "interval") kvs) = .ok n ∧
      (GoVal.struct r.1).field 0 = .string (optText (lookupKey (ascii "failure reason") kvs)) ∧
      (GoVal.struct r.1).field 1 = .int n ∧
      ((lookupKey (ascii "peers") kvs = .nil ∧ (GoVal.struct r.1).field 2 = .nilSlice ∧
          (GoVal.struct r.1).field 3 = .nilSlice) ∨
       (∃ p vs raw ps, lookupKey (ascii "peers") kvs = .list p vs raw ∧ peerTexts vs = some ps ∧
          (GoVal.struct r.1).field 2 = .slice (ps.map (fun p => .struct [.string p.1, .string p.2]))))) := by
  have k1 : tagKey (ascii "failure reason,optional") = ascii "failure reason" := by decide
  have k2 : tagKey (ascii "interval,optional") = ascii "interval" := by decide
  have k3 : tagKey (ascii "peers,optional") = ascii "peers" := by decide
  have k4 : tagKey (ascii "peers6,optional") = ascii "peers6" := by decide
  have o1 : tagOptional (ascii "failure reason,optional") = true := by decide
  have o2 : tagOptional (ascii "interval,optional") = true := by decide
  have o3 : tagOptional (ascii "peers,optional") = true := by decide
  have o4 : tagOptional (ascii "peers6,optional") = true := by decide
  have hs : ∀ o v, setField .string o v = (.string v.toText, .ok) := by intro o v; rw [setField, setValue]
  have hb : ∀ o v, setField (.slice (.uint 8)) o v = (.bytes v.rawBytes, .ok) := by
    intro o v; rw [setField, setValue.eq_def]; rfl
  have hi : ∀ o v, setField (.int 64) o v = (match parseInt0 v.toText 64 with
      | .ok n => (.int n, .ok)
      | .error _ => (o, .err "could not assign bencode value to target")) := by
    intro o v; rw [setField, setValue]; rfl
  simp only [announceResponseFields, fld, zeros, zero]
  rw [setFields_cons_active _ _ _ _ (by decide), k1, o1]
  simp only [List.headD_cons, List.tail_cons]
  rw [setFields_cons_active _ _ _ _ (by decide), k2, o2]
  simp only [List.headD_cons, List.tail_cons]
  rw [setFields_cons_active _ _ _ _ (by decide), k3, o3]
  simp only [List.headD_cons, List.tail_cons]
  rw [setFields_cons_active _ _ _ _ (by decide), k3, o3]
  simp only [List.headD_cons, List.tail_cons]
  rw [setFields_cons_active _ _ _ _ (by decide), k4, o4]
  simp only [List.headD_cons, List.tail_cons, hs, hb, setFields, if_true]
  rw [hi]
  simp only [optInt, optText]
  generalize lookupKey (ascii "failure reason") kvs = vf
  generalize lookupKey (ascii "interval") kvs = vi
  generalize lookupKey (ascii "peers6") kvs = v6
  generalize hvp : lookupKey (ascii "peers") kvs = vp
  have hpn : vp.isNil = true → vp = .nil := (isNil_iff vp).1
  cases hpi : parseInt0 vi.toText 64 with
  | error e =>
    cases hvi : vi.isNil
    · left; cases vf.isNil <;> exact ⟨_, rfl⟩
    · rcases setField_peers .nilSlice vp with ⟨p, vs, raw, ps, rfl, h2, h3⟩ | ⟨h1, e, h3⟩
      · right; rw [h3]; refine ⟨0, ?_, ?_, ?_, ?_, .inr ⟨p, vs, raw, ps, rfl, h2, ?_⟩⟩ <;>
        cases vf.isNil <;> cases v6.isNil <;> simp [Bencode.isNil, GoVal.field]
      · rw [h3]
        cases hn : vp.isNil
        · left; cases vf.isNil <;> simp
        · right; refine ⟨0, ?_⟩
          cases vf.isNil <;> cases v6.isNil <;> simp [GoVal.field, hpn hn]
  | ok n =>
    rcases setField_peers .nilSlice vp with ⟨p, vs, raw, ps, rfl, h2, h3⟩ | ⟨h1, e, h3⟩
    · right; rw [h3]
      refine ⟨if vi.isNil then 0 else n, ?_, ?_, ?_, ?_, .inr ⟨p, vs, raw, ps, rfl, h2, ?_⟩⟩ <;>
      cases vf.isNil <;> cases v6.isNil <;> cases vi.isNil <;> simp [Bencode.isNil, GoVal.field]
    · rw [h3]
      cases hn : vp.isNil
      · left; cases vf.isNil <;> cases vi.isNil <;> simp
      · right; refine ⟨if vi.isNil then 0 else n, ?_⟩
        cases vf.isNil <;> cases v6.isNil <;> cases vi.isNil <;> simp [GoVal.field, hpn hn]

/-- And when it does succeed. -/
theorem unmarshal_response_ok (p : Bool) (kvs : List (Bytes × Bencode)) (raw : Bytes) (n : Int)
    (hi : optInt (lookupKey (ascii "interval") kvs) = .ok n)
    (hp : lookupKey (ascii "peers") kvs = .nil ∨ ∃ p vs raw ps, lookupKey (ascii "peers") kvs = .list p vs raw ∧ peerTexts vs = some ps) :
    (setFields announceResponseFields (zeros announceResponseFields) (.dict p kvs raw)).2 = .ok := by
  refine Classical.byContradiction fun hne => ?_
  obtain ⟨k, nm, tag, t, old, h1, h2, h3, h4, h5⟩ := setFields_fail announceResponseFields
    (zeros announceResponseFields) p kvs raw (by simp [announceResponseFields, zeros]) hne
  have o1 : tagOptional (ascii "failure reason,optional") = true := by decide
  have o2 : tagOptional (ascii "interval,optional") = true := by decide
  have o3 : tagOptional (ascii "peers,optional") = true := by decide
  have o4 : tagOptional (ascii "peers6,optional") = true := by decide
  have k2 : tagKey (ascii "interval,optional") = ascii "interval" := by decide
  have k3 : tagKey (ascii "peers,optional") = ascii "peers" := by decide
  have hs : ∀ o v, setField .string o v = (.string v.toText, .ok) := by intro o v; rw [setField, setValue]
  have hb : ∀ o v, setField (.slice (.uint 8)) o v = (.bytes v.rawBytes, .ok) := by
    intro o v; rw [setField, setValue.eq_def]; rfl
  simp only [announceResponseFields, fld] at h1
  match k, h1 with
  | 0, h1 =>
    simp only [List.getElem?_cons_zero, Option.some.injEq, Prod.mk.injEq] at h1
    obtain ⟨⟨_, rfl, _⟩, rfl⟩ := h1
    rcases h5 with h5 | ⟨_, h5, _⟩
    · simp [o1] at h5
    · exact h5 (by rw [hs])
  | 1, h1 =>
    simp only [List.getElem?_cons_zero, List.getElem?_cons_succ, Option.some.injEq, Prod.mk.injEq] at h1
    obtain ⟨⟨_, rfl, _⟩, rfl⟩ := h1
    rcases h5 with h5 | ⟨h6, h5, _⟩
    · simp [o2] at h5
    · rw [k2] at h5 h6
      simp only [optInt] at hi
      rw [if_neg (by rw [isNil_iff]; exact h6)] at hi
      rw [setField, setValue] at h5
      rw [hi] at h5
      exact h5 rfl
  | 2, h1 =>
    simp only [List.getElem?_cons_zero, List.getElem?_cons_succ, Option.some.injEq, Prod.mk.injEq] at h1
    obtain ⟨⟨_, rfl, _⟩, rfl⟩ := h1
    rcases h5 with h5 | ⟨h6, h5, _⟩
    · simp [o3] at h5
    · rw [k3] at h5 h6
      rcases hp with hp | ⟨p', vs, raw', ps, hp, hps⟩
      · exact h6 hp
      · rcases setField_peers old (lookupKey (ascii "peers") kvs) with ⟨_, _, _, _, _, _, h7⟩ | ⟨h7, _⟩
        · rw [h7] at h5; exact h5 rfl
        · exact h7 _ _ _ _ hp hps
  | 3, h1 =>
    simp only [List.getElem?_cons_zero, List.getElem?_cons_succ, Option.some.injEq, Prod.mk.injEq] at h1
    obtain ⟨⟨_, rfl, _⟩, rfl⟩ := h1
    rcases h5 with h5 | ⟨_, h5, _⟩
    · simp [o3] at h5
    · exact h5 (by rw [hb])
  | 4, h1 =>
    simp only [List.getElem?_cons_zero, List.getElem?_cons_succ, Option.some.injEq, Prod.mk.injEq] at h1
    obtain ⟨⟨_, rfl, _⟩, rfl⟩ := h1
    rcases h5 with h5 | ⟨_, h5, _⟩
    · simp [o4] at h5
    · exact h5 (by rw [hb])
  | k + 5, h1 => simp at h1

end Gotit
