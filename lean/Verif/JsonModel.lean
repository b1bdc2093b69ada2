/-
Model of the JSON writer shared by the jsoninfo, netjson and poprouting
plugins: `lib/info/json_helpers.c`.

The text appended to the `autobuf` is a list of characters.  Appending always
succeeds here (`autobuf` itself, with its allocation failures, is modelled in
`AbufModel`).  A failing `assert` is the outcome `abort` (olsrd is built with
assertions on), reading or writing `entrynumber` out of bounds and overflowing
an entry counter are the outcome `ub`.
-/
namespace Verif.Json

/-- Text is a list of characters. -/
abbrev Str := List Char

/-- `struct json_session` (lib/info/json_helpers.h 60-64): whether to indent,
the counters `entrynumber[INFO_JSON_ENTRY_MAX_DEPTH]` and the depth.  The
counters are a function of the index; the bound 16 (json_helpers.h 54) is
checked on every access. -/
structure Sess where
  pretty : Bool
  depth : Nat
  entry : Nat → Nat

/-- `INFO_JSON_ENTRY_MAX_DEPTH` (lib/info/json_helpers.h 54). -/
def maxDepth : Nat := 16

/-- The largest `int`; incrementing an entry counter beyond it is undefined. -/
def intMax : Nat := 2147483647

/-- The scalar writers' argument: `abuf_json_boolean`, `abuf_json_string` (also
used, with the text of the address, for `abuf_json_ip_address`,
`abuf_json_ip_address46` and `abuf_json_prefix`; a null pointer is `none`),
`abuf_json_int` and `abuf_json_float` (json_helpers.c 143-274).  For a float
the text made by `%f` is a parameter: infinities and NaN have already been
replaced (json_helpers.c 196-202), so it is always an optional minus, digits, a
point and six digits. -/
inductive Scalar where
  | bool (b : Bool)
  | str (s : Option Str)
  | int (v : Int)
  | flt (txt : Str)

/-- The calls of the writer (json_helpers.c 89-274).
`abuf_json_mark_array_entry` (136-141) is `mark open false none`. -/
inductive Call where
  | output (opn : Bool)
  | mark (opn : Bool) (array : Bool) (header : Option Str)
  | put (key : Option Str) (v : Scalar)

/-- What a call does: the new session and the text appended, a failed
assertion, or undefined behaviour. -/
inductive Res where
  | ok (s : Sess) (out : Str)
  | abort
  | ub

/-- A decimal digit. -/
def digit (n : Nat) : Char := Char.ofNat (48 + n)

/-- The digits written by `%lld` for a non-negative number, at most `f` of
them (json_helpers.c 169-187). -/
def decF : Nat → Nat → Str
  | 0, _ => []
  | f + 1, n => if n < 10 then [digit n] else decF f (n / 10) ++ [digit (n % 10)]

/-- `%lld` (json_helpers.c 169-187): twenty digits are enough for every
`long long`. -/
def dec (v : Int) : Str :=
  if v < 0 then '-' :: decF 20 v.natAbs else decF 20 v.natAbs

/-- `abuf_json_new_indent` (json_helpers.c 65-79). -/
def indent (s : Sess) : Str :=
  if s.depth ≠ 0 then
    if s.pretty then '\n' :: List.replicate (2 * s.depth) ' ' else []
  else []

/-- `abuf_json_insert_comma` (json_helpers.c 81-87). -/
def comma (s : Sess) : Str :=
  if s.entry s.depth ≠ 0 then [','] else []

/-- The optional `"key": ` in front of a value (json_helpers.c 118-122, 149-151 and
the same lines of the other writers).  The key is copied as it is. -/
def keyText : Option Str → Str
  | some k => '"' :: k ++ ['"', ':', ' ']
  | none => []

/-- The text of a scalar (json_helpers.c 152, 165, 185, 209, 224, 248,
265-271).  The string is copied as it is: nothing is escaped. -/
def scalarText : Scalar → Str
  | .bool true => ['t', 'r', 'u', 'e']
  | .bool false => ['f', 'a', 'l', 's', 'e']
  | .str none => ['"', '"']
  | .str (some s) => '"' :: s ++ ['"']
  | .int v => dec v
  | .flt t => t

/-- Writing `entrynumber[i] = v`. -/
def setEntry (s : Sess) (i v : Nat) : Sess :=
  { s with entry := fun j => if j = i then v else s.entry j }

/-- One call (json_helpers.c 58-63, 89-274). -/
def exec (s : Sess) : Call → Res
  | .output true =>
      -- abuf_json_mark_output, json_helpers.c 93-98
      if s.depth ≠ 0 then .abort
      else .ok (setEntry { s with depth := 1 } 1 0) (indent s ++ ['{'])
  | .output false =>
      -- json_helpers.c 99-108
      if s.depth ≠ 1 then .abort
      else
        .ok { (setEntry s 1 0) with depth := 0 }
          (indent { s with depth := 0 } ++ (if s.pretty then ['\n'] else []) ++ ['}'])
  | .mark true array header =>
      -- abuf_json_mark_object, json_helpers.c 115-126
      if maxDepth ≤ s.depth then .ub
      else if s.entry s.depth = intMax then .ub
      else if maxDepth ≤ s.depth + 1 then .abort
      else
        .ok (setEntry { (setEntry s s.depth (s.entry s.depth + 1)) with depth := s.depth + 1 }
              (s.depth + 1) 0)
          (comma s ++ indent s ++ keyText header ++ (if array then ['['] else ['{']))
  | .mark false array _ =>
      -- json_helpers.c 127-133
      if maxDepth ≤ s.depth then .ub
      else if s.depth = 0 then .abort
      else
        .ok { (setEntry s s.depth 0) with depth := s.depth - 1 }
          (indent { s with depth := s.depth - 1 } ++ (if array then [']'] else ['}']))
  | .put key v =>
      -- json_helpers.c 143-274
      if maxDepth ≤ s.depth then .ub
      else if s.entry s.depth = intMax then .ub
      else
        .ok (setEntry s s.depth (s.entry s.depth + 1))
          (comma s ++ indent s ++ keyText key ++ scalarText v)

/-- A sequence of calls on one session and one buffer. -/
def execs (s : Sess) : List Call → Res
  | [] => .ok s []
  | c :: cs =>
    match exec s c with
    | .ok s1 o1 =>
      match execs s1 cs with
      | .ok s2 o2 => .ok s2 (o1 ++ o2)
      | .abort => .abort
      | .ub => .ub
    | .abort => .abort
    | .ub => .ub

/-- `abuf_json_reset_entry_number_and_depth` (json_helpers.c 58-63). -/
def reset (pretty : Bool) : Sess := { pretty := pretty, depth := 0, entry := fun _ => 0 }

end Verif.Json
