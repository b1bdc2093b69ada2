import Verif.JsonModel
/-
Model of the HTTP framing of a reply of the info plugins
(`lib/info/http_headers.c`, `lib/info/http_headers.h`,
`lib/info/olsrd_info.c` 482-573) and of the check which hosts may connect
(`lib/info/olsrd_info.c` 898-909).

Text is a list of characters.  The time of day, the name of the plugin and the
content type are parameters.  `abuf_*` always succeeds.
-/
namespace Verif.InfoHttp
open Verif.Json

/-- `INFO_HTTP_…` (http_headers.h 54-61). -/
def OK : Nat := 200
def NOCONTENT : Nat := 204

/-- `httpStatusToReply` (http_headers.h 69-97). -/
def statusReply (status : Nat) : Str :=
  if status = 204 then "204 No Content".toList
  else if status = 403 then "403 Forbidden".toList
  else if status = 404 then "404 Not Found".toList
  else if status = 408 then "408 Request Timeout".toList
  else if status = 413 then "413 Request Entity Too Large".toList
  else if status = 503 then "503 Service Unavailable".toList
  else if status = 200 then "200 OK".toList
  else "500 Internal Server Error".toList

/-- Carriage return and line feed. -/
def crlf : Str := ['\r', '\n']

/-- What the header needs from outside: the plugin's name, the content type and
the formatted time (`none` when `strftime` fails), http_headers.c 60-84. -/
structure Env where
  name : Str
  mime : Option Str
  date : Option Str

/-- A header field which is left out when there is nothing to say
(http_headers.c 74-77, 86-88). -/
def optField (pre : Str) : Option Str → Str
  | some d => pre ++ d ++ crlf
  | none => []

/-- The header up to the place of the length, `http_header_build`
(http_headers.c 60-99). -/
def headPre (e : Env) (status : Nat) : Str :=
  "HTTP/1.1 ".toList ++ statusReply status ++ crlf ++
  optField "Date: ".toList e.date ++
  ("Server: OLSRD ".toList ++ e.name ++ crlf) ++
  ("Connection: close".toList ++ crlf) ++
  optField "Content-Type: ".toList e.mime ++
  ("Access-Control-Allow-Origin: *".toList ++ crlf) ++
  ("Access-Control-Allow-Methods: GET, POST, OPTIONS".toList ++ crlf) ++
  ("Access-Control-Allow-Headers: Accept, Origin, X-Requested-With".toList ++ crlf) ++
  ("Access-Control-Max-Age: 1728000".toList ++ crlf) ++
  "Content-Length: ".toList

/-- The header after the place of the length (http_headers.c 101-109). -/
def headPost : Str := crlf ++ ("Cache-Control: no-cache".toList ++ crlf) ++ crlf

/-- `http_header_build` on an empty buffer (http_headers.c 60-110): the text and
`*contentLengthIndex`. -/
def headerBuild (e : Env) (status : Nat) : Str × Nat :=
  (headPre e status ++ List.replicate 12 ' ' ++ headPost, (headPre e status).length)

/-- `http_header_adjust_content_length` (http_headers.c 112-121): the number, at
most twelve characters of it, is copied over the buffer at the index. -/
def adjust (buf : Str) (idx : Nat) (len : Int) : Str :=
  buf.take idx ++ (dec len).take 12 ++ buf.drop (idx + ((dec len).take 12).length)

/-- The local variables of `send_info`: `status`, `abuf`, `contentLengthIndex`
and `headerLength` (olsrd_info.c 482-490). -/
structure Stage where
  status : Nat
  buf : Str
  idx : Nat
  hlen : Nat

/-- A buffer with only the header for a status, if there is one: `hdr` gives its
text and index (olsrd_info.c 494-499, 551-558). -/
def begin_ (hdr : Nat → Str × Nat) (status : Nat) : Stage :=
  { status := status, buf := (hdr status).1, idx := (hdr status).2, hlen := (hdr status).1.length }

/-- The reports are appended; when they wrote nothing the reply starts again
with another status (olsrd_info.c 501-560). -/
def withBody (hdr : Nat → Str × Nat) (status : Nat) (body : Str) (outputLength : Nat) : Stage :=
  if status = OK then
    if (begin_ hdr status).buf.length + body.length = 0 ∨ outputLength = 0 then begin_ hdr NOCONTENT
    else { begin_ hdr status with buf := (begin_ hdr status).buf ++ body }
  else begin_ hdr status

/-- The text for a status other than OK is appended (olsrd_info.c 562-569). -/
def withError (g : Stage) (err : Nat → Str) : Stage :=
  if g.status ≠ OK then { g with buf := g.buf ++ err g.status } else g

/-- The length is filled in (olsrd_info.c 571-573). -/
def finish (addHeaders : Bool) (g : Stage) : Str :=
  if addHeaders then adjust g.buf g.idx ((g.buf.length : Int) - (g.hlen : Int)) else g.buf

/-- The header of a reply, if the request asked for one. -/
def header (e : Env) (addHeaders : Bool) (status : Nat) : Str × Nat :=
  if addHeaders then headerBuild e status else ([], 0)

/-- `send_info` up to the reply being complete (olsrd_info.c 494-573).  `body`
and `outputLength` are what the reports wrote (`InfoModel.reply`), used only
with status 200; `err` is what the plugin's `output_error` writes for a status
(or the single line feed of olsrd_info.c 565-568). -/
def sendInfo (e : Env) (addHeaders : Bool) (status : Nat) (body : Str) (outputLength : Nat)
    (err : Nat → Str) : Str :=
  finish addHeaders (withError (withBody (header e addHeaders) status body outputLength) err)

/-- The test of an IPv4 peer (olsrd_info.c 898-903); addresses are numbers in
host order, 0 is `INADDR_ANY` and 127.0.0.1 is `INADDR_LOOPBACK`. -/
def denied4 (accept peer : Nat) (allowLocalhost : Bool) : Bool :=
  accept ≠ 0 && peer ≠ accept && (!allowLocalhost || peer ≠ 0x7f000001)

/-- The test of an IPv6 peer (olsrd_info.c 904-909): 0 is `in6addr_any`, 1 is
`in6addr_loopback`. -/
def denied6 (accept peer : Nat) (allowLocalhost : Bool) : Bool :=
  accept ≠ 0 && peer ≠ accept && (!allowLocalhost || accept ≠ 1)

end Verif.InfoHttp
