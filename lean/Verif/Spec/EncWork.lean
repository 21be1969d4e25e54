import Verif.Model.EncWork

/-! # What a client expects of an encoder -/

namespace Verif.EncWork

/-- Somebody else's work is not done: a thread or the main loop will still call the encoder. -/
def State.flying (s : State) : Bool := s.works.any (·.started) || s.zs.any (·.started)

/-- The result shows the frame that was given, in the format that was set, and has its size and time.  Tight makes
four parts.  It forgets the time of a frame that it is given while it hands over another. -/
def Shows (k : Kind) (j : Job) (r : Result) : Prop :=
  r.parts = List.replicate (if k = .tight then 4 else 1) { fb := j.frame.fb, damage := j.frame.damage, fmt := j.fmt, quality := j.quality } ∧
  r.width = j.frame.width ∧ r.height = j.frame.height ∧
  (r.pts = j.frame.pts ∨ k = .tight ∧ j.inside = true ∧ r.pts = none)

/-- one result for each, in order -/
inductive AllShown (k : Kind) : List Job → List Result → Prop
  | nil : AllShown k [] []
  | snoc {js rs j r} : AllShown k js rs → Shows k j r → AllShown k (js ++ [j]) (rs ++ [r])

/-- Tight's workers are all started or none; its grid can be allocated -/
def Faults.Fine (e : Faults) : Prop := e.noGrid = false ∧ (e.noJob 0 = true ∨ ∀ i, e.noJob i = false)

def Act.Fine (k : Kind) : Act → Prop
  | .encode _ _ _ e => k = .tight → e.Fine
  | .close => True

/-- Framebuffers can be mapped by the workers of Raw and ZRLE, and Tight's last work can be started. -/
def Op.Fine (k : Kind) : Op → Prop
  | .client a => a.Fine k
  | .runWork _ mapped => mapped = true
  | .runQuarter _ => True
  | .workDone _ as => ∀ a ∈ as, a.Fine k
  | .quarterDone _ e => e.noWork = false ∧ e.noStart = false

/-- threads and the main loop alone -/
def Op.Loop : Op → Prop
  | .runWork _ mapped => mapped = true
  | .runQuarter _ => True
  | .workDone _ as => as = []
  | .quarterDone _ e => e.noWork = false ∧ e.noStart = false
  | .client _ => False

end Verif.EncWork
