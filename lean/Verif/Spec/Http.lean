import Verif.Model.Http

/-! # What an upgrade request looks like (RFC 9112 / RFC 6455 section 4.1), as text

Only the literals of the model and its comparison without regard to case (`c32_names_case_insensitive`) are used. -/

namespace Verif.Http

/-- one header line -/
def line (f : Bytes × Bytes) : Bytes := f.1 ++ lit ": " ++ f.2 ++ lit "\r\n"

/-- a request for `/path` with the given header fields -/
def render (path : Bytes) (fields : List (Bytes × Bytes)) : Bytes :=
  lit "GET /" ++ path ++ lit " HTTP/1.1\r\n" ++ (fields.map line).flatten ++ lit "\r\n"

/-- space and tab -/
def Blank (c : UInt8) : Prop := c = 32 ∨ c = 9

instance (c : UInt8) : Decidable (Blank c) := inferInstanceAs (Decidable (_ ∨ _))

/-- a character of a path: printable, and none of the separators -/
def pathChar (c : UInt8) : Bool :=
  decide (33 ≤ c.toNat) && decide (c.toNat ≤ 126) && !("/?&=".toList.contains (Char.ofNat c.toNat))

/-- a character of a field name: letters, digits and dashes -/
def nameChar (c : UInt8) : Bool := (Char.ofNat c.toNat).isAlphanum || c == 45

/-- printable, no separators -/
def PathOk (path : Bytes) : Prop := ∀ c ∈ path, pathChar c = true

/-- field names are letters, digits and dashes; values contain no CR and have no leading blank -/
def FieldOk (f : Bytes × Bytes) : Prop :=
  f.1 ≠ [] ∧ (∀ c ∈ f.1, nameChar c = true) ∧ (13 : UInt8) ∉ f.2 ∧ ∀ c, f.2.head? = some c → ¬ Blank c

/-- the same text but for the case of ASCII letters -/
def Same (a b : Bytes) : Prop :=
  a.map (fun c => (Char.ofNat c.toNat).toLower) = b.map (fun c => (Char.ofNat c.toNat).toLower)

def isContent (k : Bytes) : Bool := caseEq k (lit "Content-Length") || caseEq k (lit "Content-Type")

end Verif.Http
