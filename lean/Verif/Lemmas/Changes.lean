import Verif.Lemmas.Formats
import Verif.Lemmas.Wire
import Verif.Spec.Changes

/-!
# C98: parts of a session
-/

namespace Verif.Changes

open Verif.Server Verif.Formats Verif.Wire

variable {sizes : Bytes → Sizes}

/-- neither ServerInit nor a change of the format -/
def flat : Eff → Bool
  | .send _ k _ => k != .serverInit
  | .pixFmt _ => false
  | _ => true

theorem flat_dull {e : Eff} (h : dull e = true) : flat e = true := by
  cases e with
  | send ch k b => cases k <;> first | rfl | exact h
  | _ => first | rfl | exact h

theorem talkOf_append (l m : List Eff) : talkOf (l ++ m) = m.foldl Talk.note (talkOf l) := List.foldl_append

theorem talk_none {l es : List Eff} (h : talkOf l = none) (he : ∀ e ∈ es, isInit e = false) :
    talkOf (l ++ es) = none := by
  rw [talkOf_append, h]
  clear h
  induction es with
  | nil => rfl
  | cons e es ih =>
    have h1 : Talk.note none e = none := by
      have := he e (by simp)
      cases e with
      | send ch k b => cases k <;> first | rfl | cases this
      | _ => rfl
    rw [List.foldl_cons, h1]
    exact ih fun e h => he e (by simp [h])

theorem flat_init {e : Eff} (h : flat e = true) : isInit e = false := by
  cases e with
  | send ch k b => cases k <;> first | rfl | cases h
  | _ => rfl

theorem talk_some {l es : List Eff} {t : Talk} (h : talkOf l = some t) (he : ∀ e ∈ es, flat e = true) :
    talkOf (l ++ es) = some { t with now := { t.now with bytes := t.now.bytes ++ sent es } } := by
  rw [talkOf_append, h]
  clear h
  induction es generalizing t with
  | nil => simp [sent]
  | cons e es ih =>
    have h0 := he e (by simp)
    have ih := fun {t} => @ih t fun e h => he e (by simp [h])
    rw [List.foldl_cons]
    cases e with
    | send ch k b =>
      show es.foldl Talk.note (some _) = _
      rw [ih]
      simp [sent]
    | pixFmt f => cases h0
    | _ => exact ih

theorem asked_flat {l es : List Eff} (he : ∀ e ∈ es, flat e = true) : (asked (l ++ es)).fmt = (asked l).fmt := by
  rw [asked_append]
  generalize asked l = a
  induction es generalizing a with
  | nil => rfl
  | cons e es ih =>
    rw [List.foldl_cons, ih fun e h => he e (by simp [h])]
    have h0 := he e (by simp)
    cases e with
    | send ch k b => cases k <;> first | rfl | cases h0
    | pixFmt f => cases h0
    | _ => rfl

theorem Fair.mono {l m : List Eff} (h : Fair sizes (l ++ m)) : Fair sizes l :=
  ⟨fun pre f post hl => h.frames pre f (post ++ m) (by rw [hl]; simp),
    fun pre ch b post g hl => h.cursors pre ch b (post ++ m) g (by rw [hl]; simp),
    fun es he => h.leds es (List.mem_append_left _ he), fun ch k b hb => h.short ch k b (List.mem_append_left _ hb)⟩

theorem Timely.mono {l m : List Eff} (h : Timely (l ++ m)) : Timely l :=
  fun pre ch b post hl => h pre ch b (post ++ m) (by rw [hl]; simp)

/-- no byte is left out -/
theorem session_talk (l : List Eff) : session l = (talkOf l).map Talk.all := by
  have h1 : ∀ (l : List Eff) (t : Talk), ∃ u, l.foldl Talk.note (some t) = some u ∧ u.all = t.all ++ sent l := by
    intro l
    induction l with
    | nil => intro t; exact ⟨t, rfl, by simp [sent]⟩
    | cons e l ih =>
      intro t
      rw [List.foldl_cons]
      cases e with
      | send ch k b =>
        obtain ⟨u, h1, h2⟩ := ih { t with now := { t.now with bytes := t.now.bytes ++ b } }
        exact ⟨u, h1, by rw [h2]; simp [Talk.all, Talk.parts, sent]⟩
      | pixFmt f =>
        obtain ⟨u, h1, h2⟩ := ih { t with past := t.past ++ [t.now], now := ⟨describe f, []⟩ }
        exact ⟨u, h1, by rw [h2]; simp [Talk.all, Talk.parts, sent]⟩
      | _ => exact ih t
  unfold talkOf
  induction l with
  | nil => rfl
  | cons e l ih =>
    rw [List.foldl_cons]
    cases e with
    | send ch k b =>
      cases k with
      | serverInit =>
        obtain ⟨u, h2, h3⟩ := h1 l ⟨b, [], (b.drop 4).take 16, []⟩
        show some (b ++ sent l) = (l.foldl Talk.note (some _)).map _
        rw [h2]
        show _ = some u.all
        rw [h3]
        simp [Talk.all, Talk.parts]
      | _ => exact ih
    | _ => exact ih

theorem readInit_fmt {b r : Bytes} {i : InitMsg} (h : readInit b = some (i, r)) : i.fmt = (b.drop 4).take 16 := by
  unfold readInit at h
  split at h
  · cases h
  · rename_i hd r' h1
    split at h
    · cases h
    · cases h
      obtain ⟨h2, h3⟩ := takeN_some h1
      show (hd.drop 4).take 16 = _
      rw [h2, List.drop_append_of_le_length (by omega), List.take_append_of_le_length (by simp; omega)]

end Verif.Changes
