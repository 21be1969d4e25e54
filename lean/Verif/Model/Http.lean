import Verif.Model.Base64

/-! # Model of the HTTP upgrade request parser and the WebSocket handshake:
src/stream/ws/http.c, src/stream/ws/handshake.c

The input is a NUL-terminated string, represented by the bytes before the NUL; a position in it is
represented by the rest of the string from there on.  Character classification (`isprint`,
`isalnum`, `isspace`, `tolower`) is that of the C locale. -/

namespace Verif.Http

/-- ASCII bytes of a literal -/
def lit (s : String) : Bytes := s.toList.map fun c => UInt8.ofNat c.toNat

def isAlnum (c : UInt8) : Bool :=
  (48 ≤ c && c ≤ 57) || (65 ≤ c && c ≤ 90) || (97 ≤ c && c ≤ 122)
def isPrint (c : UInt8) : Bool := 32 ≤ c && c ≤ 126
def isSpace (c : UInt8) : Bool := c == 32 || (9 ≤ c && c ≤ 13)
def toLower (c : UInt8) : UInt8 := if 65 ≤ c ∧ c ≤ 90 then c + 32 else c
/-- `strcasecmp(a, b) == 0` -/
def caseEq (a b : Bytes) : Bool := a.map toLower == b.map toLower

/-- `enum httplex_token_type`, src/stream/ws/http.c:24-36 (END is never produced) -/
inductive Tok where
  | solidus | cr | lf | ws | literal | key | value | query | ampersand | eq
  deriving DecidableEq, Repr

/-- `enum httplex_state`, src/stream/ws/http.c:43-47 -/
inductive LexState where
  | request | key | value
  deriving DecidableEq, Repr

/-- `struct httplex`, src/stream/ws/http.c:49-58; `text` is `current_token.value` -/
structure Lex where
  st : LexState := .request
  tok : Tok := .solidus
  text : Bytes := []
  pos : Bytes
  next : Option Bytes := none
  accepted : Bool := true
  deriving DecidableEq, Repr

/-- `httplex__is_literal`, src/stream/ws/http.c:79-88 -/
def isLiteral (c : UInt8) : Bool :=
  !(c == 47 || c == 13 || c == 10 || c == 32 || c == 9 || c == 63 || c == 38 || c == 61) && isPrint c

/-- `httplex__is_key_char`, src/stream/ws/http.c:145-148 -/
def isKeyChar (c : UInt8) : Bool := isAlnum c || c == 45

def isBlank (c : UInt8) : Bool := c == 32 || c == 9

/-- Result of a classifier: token, its text, `next_pos`; `none` is -1 -/
abbrev Class := Option (Tok × Bytes × Bytes)

/-- `httplex__classify_request_token`, src/stream/ws/http.c:98-143 -/
def classifyRequest (p : Bytes) : Class :=
  match p with
  | [] => none
  | c :: r =>
    if c = 47 then some (.solidus, [], p.dropWhile (· == 47))
    else if c = 13 then some (.cr, [], r)
    else if c = 10 then some (.lf, [], r)
    else if c = 63 then some (.query, [], r)
    else if c = 38 then some (.ampersand, [], r)
    else if c = 61 then some (.eq, [], r)
    else if c = 32 ∨ c = 9 then some (.ws, [], p.dropWhile isBlank)
    else if isLiteral c then some (.literal, p.takeWhile isLiteral, p.dropWhile isLiteral)
    else none

/-- `httplex__classify_key_token`, src/stream/ws/http.c:158-190 -/
def classifyKey (p : Bytes) : Class :=
  match p with
  | [] => none
  | c :: r =>
    if c = 13 then some (.cr, [], r)
    else if c = 10 then some (.lf, [], r)
    else if ¬ isKeyChar c then none
    else
      match p.dropWhile isKeyChar with
      | 58 :: rest => some (.key, p.takeWhile isKeyChar, rest.dropWhile isBlank)
      | _ => none

/-- `httplex__classify_value_token`, src/stream/ws/http.c:192-206 -/
def classifyValue (p : Bytes) : Class :=
  match p.dropWhile (· ≠ 13) with
  | 13 :: 10 :: rest => some (.value, p.takeWhile (· ≠ 13), rest)
  | _ => none

/-- `httplex__classify_token`, src/stream/ws/http.c:208-221 -/
def classify (st : LexState) (p : Bytes) : Class :=
  match st with
  | .request => classifyRequest p
  | .key => classifyKey p
  | .value => classifyValue p

/-- `httplex_next_token`, src/stream/ws/http.c:223-240; `false` is NULL -/
def nextToken (l : Lex) : Lex × Bool :=
  if ¬ l.accepted then (l, true)
  else
    let l := { l with pos := l.next.getD l.pos }
    match classify l.st l.pos with
    | none => (l, false)
    | some (t, v, n) =>
      ({ l with tok := t, text := if t = .literal ∨ t = .key ∨ t = .value then v else l.text
                next := some n, accepted := false }, true)

/-- `httplex_accept_token`, src/stream/ws/http.c:242-246 -/
def accept (l : Lex) : Lex := { l with accepted := true }

/-- `http__literal`, src/stream/ws/http.c:248-261 -/
def literal (s : Bytes) (l : Lex) : Lex × Bool :=
  let (l, ok) := nextToken l
  if ok && l.tok == .literal && caseEq s l.text then (accept l, true) else (l, false)

/-- `http__peek`, src/stream/ws/http.c:273-283 -/
def peek (t : Tok) (l : Lex) : Lex × Bool :=
  let (l, ok) := nextToken l
  (l, ok && l.tok == t)

/-- `http__expect`, src/stream/ws/http.c:285-288 -/
def expect (t : Tok) (l : Lex) : Lex × Bool :=
  let (l, ok) := peek t l
  if ok then (accept l, true) else (l, false)

/-- `&&` of two parsers -/
def seq (a b : Lex → Lex × Bool) (l : Lex) : Lex × Bool :=
  let (l, ok) := a l
  if ok then b l else (l, false)

/-- `http__version`, src/stream/ws/http.c:290-295 -/
def version : Lex → Lex × Bool :=
  seq (literal (lit "HTTP")) (seq (expect .solidus) (literal (lit "1.1")))

/-- `http__url_path`, src/stream/ws/http.c:297-313.  Each recursion consumes at least one
character; `none` is fuel running out. -/
def urlPath : Nat → Lex → Option (Lex × Bool)
  | 0, _ => none
  | fuel + 1, l =>
    let (l, ok) := expect .solidus l
    if ¬ ok then some (l, false)
    else
      let (l, ok) := nextToken l
      if ¬ ok then some (l, false)
      else if l.tok ≠ .literal then some (l, l.tok == .ws)
      else
        let (l, ok) := peek .solidus (accept l)
        if ok then urlPath fuel l else some (l, true)

/-- `http__url_query`, src/stream/ws/http.c:315-322.  `a && b && c && d ? rec : 1` -/
def urlQuery : Nat → Lex → Option (Lex × Bool)
  | 0, _ => none
  | fuel + 1, l =>
    let (l, ok) := seq (expect .literal) (seq (expect .eq) (seq (expect .literal) (expect .ampersand))) l
    if ok then urlQuery fuel l else some (l, true)

/-- `http__url`, src/stream/ws/http.c:324-328.  `path && query-mark ? query : 1` -/
def url (fuel : Nat) (l : Lex) : Option (Lex × Bool) := do
  let (l, ok) ← urlPath fuel l
  let (l, ok) := if ok then expect .query l else (l, false)
  if ok then urlQuery fuel l else some (l, true)

/-- `http__request`, src/stream/ws/http.c:330-339 -/
def request (fuel : Nat) (l : Lex) : Option (Lex × Bool) := do
  let (l, ok) := seq (literal (lit "GET")) (expect .ws) l
  if ¬ ok then some (l, false)
  else do
    let (l, ok) ← url fuel l
    if ¬ ok then some (l, false)
    else some (seq (expect .ws) (seq version (seq (expect .cr) (expect .lf))) l)

/-- `HTTP_FIELD_INDEX_MAX`, include/stream/http.h:19 -/
def fieldMax : Nat := 32

/-- `struct http_req`, include/stream/http.h:28-34.  `fields` are the completed entries
(`field_index` of them), `pending` is a key stored in the next one.  Content length and type are
kept as text: nothing reads them. -/
structure Req where
  contentLength : Bytes := []
  contentType : Bytes := []
  fields : List (Bytes × Bytes) := []
  pending : Option Bytes := none
  deriving DecidableEq, Repr

/-- `http__expect_key` with a key, src/stream/ws/http.c:341-354 -/
def expectKey (k : Bytes) (l : Lex) : Lex × Bool :=
  let (l, ok) := nextToken l
  if ok && l.tok == .key && caseEq l.text k then (accept l, true) else (l, false)

/-- the value part common to `http__content_length`, `http__content_type` and
`http__field_value` (src/stream/ws/http.c:362-372, 381-391, 412-423) -/
def expectValue (l : Lex) : Lex × Bool :=
  let (l, ok) := nextToken { l with st := .value }
  if ok && l.tok == .value then (accept l, true) else (l, false)

/-- `http__content_length`, src/stream/ws/http.c:356-373 -/
def contentLength (r : Req) (l : Lex) : Req × Lex × Bool :=
  let (l, ok) := expectKey (lit "Content-Length") { l with st := .key }
  if ¬ ok then (r, l, false)
  else
    let (l, ok) := expectValue l
    if ok then ({ r with contentLength := l.text }, l, true) else (r, l, false)

/-- `http__content_type`, src/stream/ws/http.c:375-392 -/
def contentType (r : Req) (l : Lex) : Req × Lex × Bool :=
  let (l, ok) := expectKey (lit "Content-Type") { l with st := .key }
  if ¬ ok then (r, l, false)
  else
    let (l, ok) := expectValue l
    if ok then ({ r with contentType := l.text }, l, true) else (r, l, false)

/-- `http__field_kv` with `http__field_key` and `http__field_value`,
src/stream/ws/http.c:394-430.  Storing into `field[field_index]` is out of bounds once
`field_index` has reached `HTTP_FIELD_INDEX_MAX`. -/
def fieldKv (r : Req) (l : Lex) : Outcome (Req × Lex × Bool) :=
  let (l, ok) := nextToken { l with st := .key }
  if ¬ (ok && l.tok == .key) then .ok (r, l, false)
  else if r.fields.length ≥ fieldMax then .ub "field[] overflow"
  else
    let r := { r with pending := some l.text }
    let k := l.text
    let (l, ok) := expectValue (accept l)
    if ok then .ok ({ r with fields := r.fields ++ [(k, l.text)], pending := none }, l, true)
    else .ok (r, l, false)

/-- `http__header_kv`, src/stream/ws/http.c:432-437 -/
def headerKv (r : Req) (l : Lex) : Outcome (Req × Lex × Bool) :=
  let (r, l, ok) := contentLength r l
  if ok then .ok (r, l, true)
  else
    let (r, l, ok) := contentType r l
    if ok then .ok (r, l, true)
    else fieldKv r l

/-- The loop of `http__header`, src/stream/ws/http.c:441; `none` is fuel running out -/
def headerLoop : Nat → Req → Lex → Option (Outcome (Req × Lex))
  | 0, _, _ => none
  | fuel + 1, r, l =>
    match headerKv r l with
    | .ok (r, l, true) => headerLoop fuel r l
    | .ok (r, l, false) => some (.ok (r, l))
    | .ub w => some (.ub w)
    | .abort w => some (.abort w)

/-- `http_req_parse`, src/stream/ws/http.c:450-473 with `http__header` (439-448): the request and
`header_length`, or `none` for -1.  The outer `none` is fuel running out. -/
def parseFuel (fuel : Nat) (input : Bytes) : Option (Outcome (Option (Req × Nat))) := do
  let (l, ok) ← request fuel { pos := input }
  if ¬ ok then some (.ok none)
  else
    match ← headerLoop fuel {} l with
    | .ok (r, l) =>
      let (l, ok) := expect .cr { l with st := .key }
      let (l, ok) := if ok then expect .lf l else (l, true)
      if ok then
        match l.next with
        | some n => some (.ok (some (r, input.length - n.length)))
        | none => some (.ub "next_pos is NULL")
      else some (.ok none)
    | .ub w => some (.ub w)
    | .abort w => some (.abort w)

/-- enough fuel for any input, see `parse_total` -/
def parse (input : Bytes) : Option (Outcome (Option (Req × Nat))) := parseFuel (input.length + 1) input

/-! ## Handshake -/

/-- `magic_uuid`, src/stream/ws/handshake.c:28 -/
def magicUuid : Bytes := lit "258EAFA5-E914-47DA-95CA-C5AB0DC85B11"

/-- `tolower_and_remove_ws`, src/stream/ws/handshake.c:30-36, run for at most `fuel` iterations of
its loop; `none` is still running.  The source pointer is only advanced past characters that are
not white space. -/
def tolowerRemoveWs : Nat → Bytes → Option Bytes
  | _, [] => some []
  | 0, _ :: _ => none
  | fuel + 1, c :: cs => if isSpace c then tolowerRemoveWs fuel (c :: cs)
      else (tolowerRemoveWs fuel cs).map (toLower c :: ·)

/-- `snprintf(tmpstring, 256, "%s%s,", list, value)` followed by `tolower_and_remove_ws`,
src/stream/ws/handshake.c:56-58, 61-63 -/
def addToList (fuel : Nat) (list value : Bytes) : Option Bytes :=
  tolowerRemoveWs fuel ((list ++ value ++ [44]).take 255)

/-- one of the two list updates, src/stream/ws/handshake.c:55-59 and 60-64 -/
def extend (fuel : Nat) (name k list value : Bytes) : Option Bytes :=
  if caseEq k name then addToList fuel list value else some list

/-- The loop over the fields, src/stream/ws/handshake.c:51-65: challenge, protocols, versions -/
def scanFields (fuel : Nat) : List (Bytes × Bytes) → Option Bytes × Bytes × Bytes → Option (Option Bytes × Bytes × Bytes)
  | [], acc => some acc
  | (k, v) :: fs, (c, p, ver) =>
    (extend fuel (lit "Sec-WebSocket-Protocol") k p v).bind fun p =>
    (extend fuel (lit "Sec-WebSocket-Version") k ver v).bind fun ver =>
    scanFields fuel fs (if caseEq k (lit "Sec-WebSocket-Key") then some v else c, p, ver)

/-- the text `response` of the accept key -/
def acceptKey (sha1 : Bytes → Bytes) (challenge : Bytes) : Option Bytes :=
  (Base64.encode (sha1 (challenge ++ magicUuid))).map Base64.cstr

/-- the reply, src/stream/ws/handshake.c:90-99 -/
def replyText (response : Bytes) (haveProtocols haveVersions : Bool) : Bytes :=
  lit "HTTP/1.1 101 Switching Protocols\r\n" ++ lit "Upgrade: websocket\r\n" ++ lit "Connection: Upgrade\r\n" ++
  lit "Sec-WebSocket-Accept: " ++ response ++ lit "\r\n" ++
  (if haveProtocols then lit "Sec-WebSocket-Protocol: char\r\n" else []) ++
  (if haveVersions then lit "Sec-WebSocket-Version: 13\r\n" else []) ++ lit "\r\n"

/-- `strstr(hay, needle) != NULL` -/
def contains (needle hay : Bytes) : Bool := needle.isPrefixOf hay || match hay with
  | [] => false
  | _ :: t => contains needle t

/-- `ws_handshake`, src/stream/ws/handshake.c:39-106, with `output_maxlen` 512
(src/stream/ws/ws.c:198-200) and a budget of `fuel` iterations for each white space loop.
Outer `none`: still running.  `.ok none`: -1.  Otherwise header length and reply. -/
def handshake (sha1 : Bytes → Bytes) (fuel : Nat) (input : Bytes) : Option (Outcome (Option (Nat × Bytes))) := do
  match ← parse input with
  | .ub w => some (.ub w)
  | .abort w => some (.abort w)
  | .ok none => some (.ok none)
  | .ok (some (req, hlen)) =>
    let (challenge, protocols, versions) ← scanFields fuel req.fields (none, [44], [44])
    match challenge with
    | none => some (.ok none)
    | some ch =>
      let haveP := protocols.length ≠ 1
      let haveV := versions.length ≠ 1
      if haveP ∧ ¬ contains (lit ",chat,") protocols then some (.ok none)
      else if haveV ∧ ¬ contains (lit ",13,") versions then some (.ok none)
      else
        match acceptKey sha1 ch with
        | none => some (.ub "base64 table")
        | some resp =>
          let reply := replyText resp haveP haveV
          if reply.length < 512 then some (.ok (some (hlen, reply))) else some (.ok none)

end Verif.Http
