import Verif.Spec.Wire

/-!
# The reader of the server's messages
-/

namespace Verif.Wire

open Verif.Server (toInt32 Eff Kind)

theorem takeN_some {n : Nat} {b x y : Bytes} (h : takeN n b = some (x, y)) : b = x ++ y ∧ x.length = n := by
  unfold takeN at h
  split at h
  · cases h; exact ⟨(List.take_append_drop n b).symm, by rw [List.length_take]; omega⟩
  · cases h

theorem takeN_append (x y : Bytes) : takeN x.length (x ++ y) = some (x, y) := by
  unfold takeN
  rw [if_pos (by simp)]
  simp

theorem takeN_eq {n : Nat} {x : Bytes} (h : x.length = n) (y : Bytes) : takeN n (x ++ y) = some (x, y) := by
  subst h; exact takeN_append x y

theorem takeN_more {n : Nat} {b x y : Bytes} (h : takeN n b = some (x, y)) (c : Bytes) :
    takeN n (b ++ c) = some (x, y ++ c) := by
  obtain ⟨rfl, h2⟩ := takeN_some h
  rw [List.append_assoc]
  exact takeN_eq h2 _

theorem readCompact_cons (a : UInt8) (b : Bytes) : Enc.readCompact (a :: b) =
    if a.toNat < 128 then some (a.toNat, b)
    else match b with
      | [] => none
      | c :: b =>
        if c.toNat < 128 then some (a.toNat % 128 + 128 * c.toNat, b)
        else match b with
          | [] => none
          | d :: b => some (a.toNat % 128 + 128 * (c.toNat % 128) + 16384 * d.toNat, b) := rfl

theorem readCompact_more {b r : Bytes} {n : Nat} (h : Enc.readCompact b = some (n, r)) (c : Bytes) :
    Enc.readCompact (b ++ c) = some (n, r ++ c) := by
  match b with
  | [] => cases h
  | a :: b =>
    rw [readCompact_cons] at h
    rw [List.cons_append, readCompact_cons]
    split at h
    · cases h; rw [if_pos (by assumption)]
    · rw [if_neg (by assumption)]
      match b with
      | [] => cases h
      | d :: b =>
        dsimp only at h
        rw [List.cons_append]
        dsimp only
        split at h
        · cases h; rw [if_pos (by assumption)]
        · rw [if_neg (by assumption)]
          match b with
          | [] => cases h
          | e :: b => cases h; rfl

theorem readCompact_length {b r : Bytes} {n : Nat} (h : Enc.readCompact b = some (n, r)) : r.length ≤ b.length := by
  match b with
  | [] => cases h
  | a :: b =>
    rw [readCompact_cons] at h
    split at h
    · cases h; simp
    · match b with
      | [] => cases h
      | d :: b =>
        dsimp only at h
        split at h
        · cases h; simp only [List.length_cons]; omega
        · match b with
          | [] => cases h
          | e :: b => cases h; simp only [List.length_cons]; omega

theorem tightSize_more {tp w h n : Nat} {b : Bytes} (e : tightSize tp w h b = some n) (c : Bytes) :
    tightSize tp w h (b ++ c) = some n := by
  match b with
  | [] => cases e
  | a :: b =>
    rw [tightSize] at e
    rw [List.cons_append, tightSize]
    split at e
    · cases e; rw [if_pos (by assumption)]
    · rw [if_neg (by assumption)]
      split at e
      · rw [if_pos (by assumption)]
        cases hr : Enc.readCompact b with
        | none => rw [hr] at e; cases e
        | some q =>
          obtain ⟨k, r⟩ := q
          rw [hr] at e
          cases e
          rw [readCompact_more hr]
          have := readCompact_length hr
          simp only [List.length_append]
          congr 2
          omega
      · rw [if_neg (by assumption)]
        exact e

theorem bodySize_more {z : Sizes} {w h n : Nat} {enc : Int} {b : Bytes} (e : bodySize z w h enc b = some n)
    (c : Bytes) : bodySize z w h enc (b ++ c) = some n := by
  have key : ∀ {k : Nat} {f : Bytes × Bytes → Nat}, (∀ x y, f (x, y) = f (x, y ++ c)) →
      (takeN k b).map f = some n → (takeN k (b ++ c)).map f = some n := by
    intro k f hf hn
    cases ht : takeN k b with
    | none => rw [ht] at hn; cases hn
    | some q =>
      obtain ⟨x, y⟩ := q
      rw [ht] at hn
      rw [takeN_more ht]
      rw [← hn]
      exact congrArg some (hf x y).symm
  unfold bodySize at e ⊢
  split at e <;> first
    | exact e
    | exact tightSize_more e c
    | exact key (fun _ _ => rfl) e

theorem readRect_more {z : Sizes} {b r : Bytes} {q : RectMsg} (e : readRect z b = some (q, r)) (c : Bytes) :
    readRect z (b ++ c) = some (q, r ++ c) := by
  unfold readRect at e ⊢
  cases h1 : takeN 12 b with
  | none => rw [h1] at e; cases e
  | some p =>
    obtain ⟨hd, t⟩ := p
    rw [h1] at e
    rw [takeN_more h1]
    dsimp only at e ⊢
    split at e
    · cases e
    · rename_i n h2
      rw [bodySize_more h2]
      dsimp only
      cases h3 : takeN n t with
      | none => rw [h3] at e; cases e
      | some p =>
        obtain ⟨body, u⟩ := p
        rw [h3] at e
        cases e
        rw [takeN_more h3]

theorem readRects_more {z : Sizes} {n : Nat} {b r : Bytes} {qs : List RectMsg}
    (e : readRects z n b = some (qs, r)) (c : Bytes) : readRects z n (b ++ c) = some (qs, r ++ c) := by
  induction n generalizing b r qs with
  | zero => cases e; rfl
  | succ n ih =>
    unfold readRects at e ⊢
    cases h1 : readRect z b with
    | none => rw [h1] at e; cases e
    | some p =>
      obtain ⟨q, t⟩ := p
      rw [h1] at e
      rw [readRect_more h1]
      dsimp only at e ⊢
      cases h2 : readRects z n t with
      | none => rw [h2] at e; cases e
      | some p =>
        obtain ⟨qs', u⟩ := p
        rw [h2] at e
        cases e
        rw [ih h2]

/-- rectangles one after the other -/
theorem readRects_append {z : Sizes} {m n : Nat} {a b r : Bytes} {ps qs : List RectMsg}
    (h1 : readRects z m a = some (ps, [])) (h2 : readRects z n b = some (qs, r)) :
    readRects z (m + n) (a ++ b) = some (ps ++ qs, r) := by
  induction m generalizing a ps with
  | zero => cases h1; simpa using h2
  | succ m ih =>
    unfold readRects at h1
    cases e1 : readRect z a with
    | none => rw [e1] at h1; cases h1
    | some p =>
      obtain ⟨q, t⟩ := p
      rw [e1] at h1
      dsimp only at h1
      cases e2 : readRects z m t with
      | none => rw [e2] at h1; cases h1
      | some p =>
        obtain ⟨qs', u⟩ := p
        rw [e2] at h1
        cases h1
        rw [show m + 1 + n = (m + n) + 1 by omega]
        unfold readRects
        rw [readRect_more e1]
        dsimp only
        rw [ih e2]
        rfl

theorem readRects_one {z : Sizes} {b r : Bytes} {q : RectMsg} (h : readRect z b = some (q, r)) :
    readRects z 1 b = some ([q], r) := by
  unfold readRects
  rw [h]
  rfl

theorem readMsg_more {z : Sizes} {b r : Bytes} {m : SMsg} (e : readMsg z b = some (m, r)) (c : Bytes) :
    readMsg z (b ++ c) = some (m, r ++ c) := by
  have key : ∀ {k : Nat} {b r : Bytes} {f : Bytes → SMsg}, (takeN k b).map (fun q => (f q.1, q.2)) = some (m, r) →
      (takeN k (b ++ c)).map (fun q => (f q.1, q.2)) = some (m, r ++ c) := by
    intro k b r f hn
    cases ht : takeN k b with
    | none => rw [ht] at hn; cases hn
    | some q =>
      obtain ⟨x, y⟩ := q
      rw [ht] at hn
      cases hn
      rw [takeN_more ht]
      rfl
  unfold readMsg at e
  split at e
  · rename_i n1 n0 t
    cases ht : readRects z (beNat [n1, n0]) t with
    | none => rw [ht] at e; cases e
    | some q =>
      obtain ⟨x, y⟩ := q
      rw [ht] at e
      cases e
      show (readRects z (beNat [n1, n0]) (t ++ c)).map _ = _
      rw [readRects_more ht]
      rfl
  · exact key e
  · rename_i l3 l2 l1 l0 t
    show (if _ then _ else _) = _
    split at e
    · rw [if_pos (by assumption)]; exact key e
    · rw [if_neg (by assumption)]
      cases ht : takeN (-toInt32 (beNat [l3, l2, l1, l0])).toNat t with
      | none => rw [ht] at e; cases e
      | some q =>
        obtain ⟨x, y⟩ := q
        rw [ht] at e
        rw [show (t.append c) = t ++ c from rfl, takeN_more ht]
        match x with
        | f3 :: f2 :: f1 :: f0 :: d => cases e; rfl
        | [_, _, _] | [_, _] | [_] | [] => cases e
  · cases e; rfl
  · exact key e
  · rename_i f3 f2 f1 f0 n t
    show (if _ then _ else _) = _
    split at e
    · cases e
    · rw [if_neg (by assumption)]; exact key e
  · cases e

theorem readMsg_shorter {z : Sizes} {b r : Bytes} {m : SMsg} (e : readMsg z b = some (m, r)) : b ≠ [] := by
  rintro rfl
  cases e

/-- the bytes are these messages -/
inductive Reads (z : Sizes) : Bytes → List SMsg → Prop
  | nil : Reads z [] []
  | cons {b r m ms} : readMsg z b = some (m, r) → r.length < b.length → Reads z r ms → Reads z b (m :: ms)

theorem Reads.append {z : Sizes} {a b : Bytes} {ms ns : List SMsg} (h1 : Reads z a ms) (h2 : Reads z b ns) :
    Reads z (a ++ b) (ms ++ ns) := by
  induction h1 with
  | nil => exact h2
  | cons e hl _ ih =>
    exact .cons (readMsg_more e b) (by simp only [List.length_append]; omega) ih

theorem Reads.one {z : Sizes} {b : Bytes} {m : SMsg} (h : readMsg z b = some (m, [])) : Reads z b [m] :=
  .cons h (by have := readMsg_shorter h; exact List.length_pos_iff.2 this) .nil

theorem Reads.readMsgs {z : Sizes} {b : Bytes} {ms : List SMsg} (h : Reads z b ms) {n : Nat} (hn : b.length ≤ n) :
    readMsgs z n b = some ms := by
  induction h generalizing n with
  | nil => cases n <;> rfl
  | @cons b r m ms e hl _ ih =>
    match n, b with
    | _, [] => simp at hl
    | 0, _ :: _ => simp at hn
    | n + 1, x :: b =>
      unfold Wire.readMsgs
      rw [e]
      dsimp only
      rw [ih (by simp only [List.length_cons] at hl hn; omega)]

theorem sent_append (l m : List Eff) : sent (l ++ m) = sent l ++ sent m := by
  induction l with
  | nil => rfl
  | cons e l ih =>
    cases e <;> simp [sent, ih]

/-- `ServerInit` -/
def isInit : Eff → Bool
  | .send _ .serverInit _ => true
  | _ => false

theorem session_none {l m : List Eff} (h : session l = none) : session (l ++ m) = session m := by
  induction l with
  | nil => rfl
  | cons e l ih =>
    cases e with
    | send ch k b => cases k <;> first | exact ih h | cases h
    | _ => exact ih h

theorem session_some {l m : List Eff} {b : Bytes} (h : session l = some b) :
    session (l ++ m) = some (b ++ sent m) := by
  induction l with
  | nil => cases h
  | cons e l ih =>
    cases e with
    | send ch k c =>
      cases k <;> first
        | exact ih h
        | (cases h; show some (c ++ sent (l ++ m)) = _; rw [sent_append, List.append_assoc])
    | _ => exact ih h

theorem session_noInit {l : List Eff} (h : ∀ e ∈ l, isInit e = false) : session l = none := by
  induction l with
  | nil => rfl
  | cons e l ih =>
    have h1 := h e (by simp)
    have h2 := ih fun e he => h e (by simp [he])
    cases e with
    | send ch k c => cases k <;> first | exact h2 | cases h1
    | _ => exact h2

theorem sent_silent {l : List Eff} (h : ∀ e ∈ l, ∀ ch k b, e ≠ .send ch k b) : sent l = [] := by
  induction l with
  | nil => rfl
  | cons e l ih =>
    have h1 := h e (by simp)
    have h2 := ih fun e he => h e (by simp [he])
    cases e with
    | send ch k c => exact absurd rfl (h1 ch k c)
    | _ => exact h2

end Verif.Wire
