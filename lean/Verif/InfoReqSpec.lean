import Verif.InfoReqModel
/-
What the clean-up of a request to an info plugin should do.
-/
namespace Verif.InfoReq

/-- The first line of what was received: up to a line end or a zero
character. -/
def firstLine (data : Str) : Str :=
  data.takeWhile fun c => !(c = '\n' || c = '\r' || c = nul)

/-- Without the characters `p` at the start. -/
def trimL (p : Char → Bool) (s : Str) : Str := s.dropWhile p

/-- Without the characters `p` at the end. -/
def trimR (p : Char → Bool) (s : Str) : Str := (s.reverse.dropWhile p).reverse

/-- A slash. -/
def isSlash (c : Char) : Bool := c = '/'

/-- Equal up to the case of letters. -/
def ciEq (a b : Str) : Prop := a.map lower = b.map lower

/-- The line is an HTTP request for `x`: `GET`, a blank, `x`, a blank,
`HTTP/1.0` or `HTTP/1.1`. -/
def IsGet (line x : Str) : Prop :=
  ∃ g b1 b2 v d, line = g ++ b1 :: (x ++ b2 :: (v ++ [d])) ∧ x ≠ [] ∧
    ciEq g "get".toList ∧ isSpace b1 = true ∧ isSpace b2 = true ∧
    ciEq v "http/1.".toList ∧ (d = '0' ∨ d = '1')

/-- Several slashes at the start count as one. -/
inductive OneSlash : Str → Str → Prop where
  | none (s : Str) : (∀ r, s ≠ '/' :: r) → OneSlash s s
  | some (n : Nat) (r : Str) : (∀ r', r ≠ '/' :: r') → OneSlash (List.replicate (n + 1) '/' ++ r) ('/' :: r)

/-- The prefix `w` (such as `/http`) as a whole path segment; `rest` is what is
behind it. -/
def HasPrefix (w s rest : Str) : Prop :=
  ∃ a, s = a ++ rest ∧ ciEq a w ∧ (rest = [] ∨ ∃ r, rest = '/' :: r)

/-- The prefix is taken away and tells whether headers are wanted. -/
inductive Prefixed (hdr : Bool) (s : Str) : Bool → Str → Prop where
  | http (rest : Str) : HasPrefix "/http".toList s rest → Prefixed hdr s true rest
  | plain (rest : Str) : HasPrefix "/plain".toList s rest → Prefixed hdr s false rest
  | other : (¬ ∃ rest, HasPrefix "/http".toList s rest) → (¬ ∃ rest, HasPrefix "/plain".toList s rest) →
      Prefixed hdr s hdr s

/-- The request within the first 1023 characters received: the first line
without the blanks around it. -/
def request (data : Str) : Str := trimL isSpace (trimR isSpace (firstLine (data.take 1023)))

/-- What is asked for, and whether headers are wanted (`hdr`: by default). -/
inductive Target (hdr : Bool) (t : Str) : Bool → Str → Prop where
  | empty : t = [] → Target hdr t hdr []
  | get (x : Str) : IsGet t x → Target hdr t true x
  | plain : t ≠ [] → (¬ ∃ x, IsGet t x) → Target hdr t false t

/-- The command `w` of a request: what is asked for, without blanks and slashes
at the end, blanks and repeated slashes at the start, and the prefix. -/
inductive Command (hdr : Bool) (data : Str) (hdr' : Bool) (w : Str) : Prop where
  | mk (h : Bool) (x u v : Str) :
      Target hdr (request data) h x →
      OneSlash (trimL isSpace (trimR isSlash (trimR isSpace x))) u →
      Prefixed h u hdr' v → OneSlash v w → Command hdr data hdr' w

/-- The first line has only blanks. -/
def BlankLine (data : Str) : Prop :=
  firstLine (data.take 1023) ≠ [] ∧ trimR isSpace (firstLine (data.take 1023)) = []

/-- An HTTP request for blanks only. -/
def BlankGet (data : Str) : Prop := ∃ x, IsGet (request data) x ∧ trimR isSpace x = []

/-- The first line has only slashes, apart from blanks at its end. -/
def OnlySlashes (data : Str) : Prop :=
  trimR isSpace (firstLine (data.take 1023)) ≠ [] ∧
    trimR isSlash (trimR isSpace (firstLine (data.take 1023))) = []

/-- The memory holds the text `s` and its terminator, and the length fits. -/
def Holds (r : Rq) (s : Str) : Prop :=
  nul ∉ s ∧ r.len = s.length ∧ ∃ junk, r.mem = s ++ nul :: junk

end Verif.InfoReq
