import Verif.Model.Layout
import Verif.Props.Messages

/-!
# C19: what the application reads of a layout
-/

namespace Verif.Layouts

open Server

theorem at_build {b : Bool} {l : Server.Layout} {i : Nat} {d : Screen} (h : l.screens[i]? = some d) :
    at_ (build b l) i = .ok (displayInit b d) := by
  simp only [at_, build, List.getElem?_map, h, Option.map_some]

/-- **C19.** A client sends any SetDesktopSize message. If the callback is called then what the application reads
through the functions of the library is what the client sent, field by field; the server's display is where the
client gave the number that the server announces for it, zero; and whatever index the application asks for, nothing
outside of the layout is read. -/
theorem c19_read {env : Env} {table : List Nat} {s : St} {p : UInt8} {w h flags : Nat} {ss : List Screen}
    (rest : Bytes) (hr : s.cl.st = .ready) (hf : (Msg.setDesktopSize p w h flags ss).Fits)
    (hc : s.cl.closed = false) (b : Bool) :
    ∃ s' k es, tryRead env table reenterInHandler s ((Msg.setDesktopSize p w h flags ss).wire ++ rest) =
        .ok (s', k) ∧ s'.log = s.log ++ es ∧
      ∀ l, Eff.layout l ∈ es →
        getWidth (build b l) = w ∧ getHeight (build b l) = h ∧ getCount (build b l) = ss.length ∧
        (∀ (i : Nat) (d : Screen), ss[i]? = some d →
          getX (build b l) i = .ok d.x ∧ getY (build b l) i = .ok d.y ∧ getW (build b l) i = .ok d.w ∧
          getH (build b l) i = .ok d.h ∧ (getDisplay (build b l) i = .ok true ↔ b = true ∧ d.id = 0) ∧
          d.x + d.w ≤ getWidth (build b l) ∧ d.y + d.h ≤ getHeight (build b l)) ∧
        ∀ i, ss.length ≤ i → getX (build b l) i = .ok 0 ∧ getY (build b l) i = .ok 0 ∧
          getW (build b l) i = .ok 0 ∧ getH (build b l) i = .ok 0 ∧ getDisplay (build b l) i = .ok false := by
  obtain ⟨st, e, -⟩ := c19_layout (env := env) (table := table) rest hr hf hc
  refine ⟨_, _, _, e, List.append_assoc .., fun l hm => ?_⟩
  have hv : ∀ d ∈ ss, d.x + d.w ≤ w ∧ d.y + d.h ≤ h := by
    refine Decidable.byContradiction fun hv => ?_
    simp only [if_neg hv, List.nil_append, List.mem_cons, reduceCtorEq, List.not_mem_nil, or_false] at hm
  obtain rfl : l = ⟨w, h, ss⟩ := by
    simpa only [if_pos hv, List.mem_append, List.mem_cons, reduceCtorEq, List.not_mem_nil, or_false,
      Eff.layout.injEq] using hm
  refine ⟨rfl, rfl, rfl, fun i d hd => ?_, fun i hi => ?_⟩
  · have hlt : ¬ (build b ⟨w, h, ss⟩).nDisplayLayouts ≤ i := by
      have := (List.getElem?_eq_some_iff.mp hd).1
      simp only [build]
      omega
    have ha : at_ (build b ⟨w, h, ss⟩) i = .ok (displayInit b d) := at_build hd
    have hd' := hv d (List.mem_iff_getElem?.mpr ⟨i, hd⟩)
    unfold getX getY getW getH getDisplay
    simp only [if_neg hlt, ha]
    refine ⟨rfl, rfl, rfl, rfl, ?_, hd'.1, hd'.2⟩
    show Outcome.ok (decide (d.id = 0) && b) = .ok true ↔ _
    simp only [Outcome.ok.injEq, Bool.and_eq_true, decide_eq_true_eq]
    exact And.comm
  · have hle : (build b ⟨w, h, ss⟩).nDisplayLayouts ≤ i := hi
    unfold getX getY getW getH getDisplay
    simp only [if_pos hle, and_self]

-- Two screens side by side, the first of which is the server's; and an index that is too large.
example : getX (build true ⟨200, 100, [⟨0, 0, 0, 100, 100⟩, ⟨7, 100, 0, 100, 90⟩]⟩) 1 = .ok 100 ∧
    getH (build true ⟨200, 100, [⟨0, 0, 0, 100, 100⟩, ⟨7, 100, 0, 100, 90⟩]⟩) 1 = .ok 90 ∧
    getDisplay (build true ⟨200, 100, [⟨0, 0, 0, 100, 100⟩, ⟨7, 100, 0, 100, 90⟩]⟩) 0 = .ok true ∧
    getDisplay (build true ⟨200, 100, [⟨0, 0, 0, 100, 100⟩, ⟨7, 100, 0, 100, 90⟩]⟩) 1 = .ok false ∧
    getW (build true ⟨200, 100, [⟨0, 0, 0, 100, 100⟩]⟩) 255 = .ok 0 := by decide +kernel

end Verif.Layouts
