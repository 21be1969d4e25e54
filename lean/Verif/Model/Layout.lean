import Verif.Model.Server

/-!
# The desktop layout that the application is given: src/desktop-layout.c, include/desktop-layout.h
-/

namespace Verif.Layouts

open Server

/-- `struct nvnc_display_layout`, include/desktop-layout.h; `display` says whether it points to the server's display or
is NULL -/
structure DisplayLayout where
  display : Bool
  id : Nat
  xPos : Nat
  yPos : Nat
  width : Nat
  height : Nat
  deriving DecidableEq, Repr

/-- `struct nvnc_desktop_layout`: as many elements as were allocated -/
structure DesktopLayout where
  width : Nat
  height : Nat
  nDisplayLayouts : Nat
  displayLayouts : List DisplayLayout
  deriving DecidableEq, Repr

/-- `nvnc_display_layout_init`, src/desktop-layout.c 23-32, and server.c 1617-1618: the display of the server is the
one whose number is zero, if it has one -/
def displayInit (hasDisplay : Bool) (s : Screen) : DisplayLayout :=
  { display := decide (s.id = 0) && hasDisplay, id := s.id, xPos := s.x, yPos := s.y, width := s.w, height := s.h }

/-- `check_desktop_layout`, server.c 1600-1626: what the callback is given -/
def build (hasDisplay : Bool) (l : Server.Layout) : DesktopLayout :=
  { width := l.w, height := l.h, nDisplayLayouts := l.screens.length
    displayLayouts := l.screens.map (displayInit hasDisplay) }

/-- `layout->display_layouts[i]` -/
def at_ (l : DesktopLayout) (i : Nat) : Outcome DisplayLayout :=
  match l.displayLayouts[i]? with
  | some d => .ok d
  | none => .ub "display_layouts out of bounds"

/-- `nvnc_desktop_layout_get_width`, src/desktop-layout.c 35-38 -/
def getWidth (l : DesktopLayout) : Nat := l.width

/-- `nvnc_desktop_layout_get_height`, 41-44 -/
def getHeight (l : DesktopLayout) : Nat := l.height

/-- `nvnc_desktop_layout_get_display_count`, 47-51 -/
def getCount (l : DesktopLayout) : Nat := l.nDisplayLayouts

/-- `nvnc_desktop_layout_get_display_x_pos`, 54-60 -/
def getX (l : DesktopLayout) (i : Nat) : Outcome Nat :=
  if l.nDisplayLayouts ≤ i then .ok 0 else do return (← at_ l i).xPos

/-- `nvnc_desktop_layout_get_display_y_pos`, 63-69 -/
def getY (l : DesktopLayout) (i : Nat) : Outcome Nat :=
  if l.nDisplayLayouts ≤ i then .ok 0 else do return (← at_ l i).yPos

/-- `nvnc_desktop_layout_get_display_width`, 72-78 -/
def getW (l : DesktopLayout) (i : Nat) : Outcome Nat :=
  if l.nDisplayLayouts ≤ i then .ok 0 else do return (← at_ l i).width

/-- `nvnc_desktop_layout_get_display_height`, 81-87 -/
def getH (l : DesktopLayout) (i : Nat) : Outcome Nat :=
  if l.nDisplayLayouts ≤ i then .ok 0 else do return (← at_ l i).height

/-- `nvnc_desktop_layout_get_display`, 90-96 -/
def getDisplay (l : DesktopLayout) (i : Nat) : Outcome Bool :=
  if l.nDisplayLayouts ≤ i then .ok false else do return (← at_ l i).display

end Verif.Layouts
