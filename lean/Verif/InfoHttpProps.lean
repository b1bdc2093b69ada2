import Verif.InfoHttpModel
import Verif.JsonSpec
import Verif.JsonLemmas
/-
C113: the HTTP framing of a reply.  C114: which hosts may connect.
-/
namespace Verif.InfoHttp
open Verif.Json

/-! ### Specification: a reader of HTTP responses -/

/-- A line up to its CR LF, and the rest. -/
def splitLine : Str → Option (Str × Str)
  | [] => none
  | c :: r =>
    if c = '\r' then
      match r with
      | [] => none
      | d :: r' => if d = '\n' then some ([], r') else none
    else (splitLine r).map fun q => (c :: q.1, q.2)

/-- The lines before the empty line, and the body behind it. -/
def readHead : Nat → Str → Option (List Str × Str)
  | 0, _ => none
  | n + 1, s =>
    match splitLine s with
    | none => none
    | some ([], r) => some ([], r)
    | some (l, r) => (readHead n r).map fun q => (l :: q.1, q.2)

/-- The number in a header field: digits with spaces behind them. -/
def fieldNumber (s : Str) : Option Nat :=
  if (spanDigits s).1 = [] then none
  else if (spanDigits s).2.all (fun c => c = ' ') then some (digitsVal (spanDigits s).1) else none

/-- The value of the header field with that name, if it is a number. -/
def field (name : Str) : List Str → Option Nat
  | [] => none
  | l :: r =>
    match stripWord (name ++ [':', ' ']) l with
    | some v => fieldNumber v
    | none => field name r

/-- The parts given from outside do not break lines. -/
def plain (s : Str) : Prop := ∀ c ∈ s, c ≠ '\r'

/-- The environment does not break lines. -/
def plainEnv (e : Env) : Prop :=
  plain e.name ∧ (∀ m, e.mime = some m → plain m) ∧ (∀ d, e.date = some d → plain d)

/-! ### Lemmas -/

private theorem splitLine_plain {l : Str} (hl : plain l) (r : Str) :
    splitLine (l ++ '\r' :: '\n' :: r) = some (l, r) := by
  induction l with
  | nil => simp [splitLine]
  | cons c l ih =>
    have h1 := hl c (List.mem_cons_self ..)
    have h2 := ih (fun d hd => hl d (List.mem_cons_of_mem _ hd))
    simp only [List.cons_append]
    unfold splitLine
    rw [if_neg h1, h2]
    rfl

/-- Lines put one after the other, each with its CR LF. -/
private def linesText : List Str → Str
  | [] => []
  | l :: r => l ++ '\r' :: '\n' :: linesText r

private theorem readHead_lines (ls : List Str) (fuel : Nat) (body : Str)
    (hf : ls.length < fuel) (hp : ∀ l ∈ ls, plain l ∧ l ≠ []) :
    readHead fuel (linesText ls ++ '\r' :: '\n' :: body) = some (ls, body) := by
  induction ls generalizing fuel with
  | nil =>
    obtain ⟨n, rfl⟩ : ∃ n, fuel = n + 1 := ⟨fuel - 1, by omega⟩
    unfold readHead
    rw [show linesText [] ++ '\r' :: '\n' :: body = [] ++ '\r' :: '\n' :: body from rfl,
      splitLine_plain (by intro c hc; cases hc)]
  | cons l ls ih =>
    obtain ⟨n, rfl⟩ : ∃ n, fuel = n + 1 := ⟨fuel - 1, by omega⟩
    simp only [List.length_cons] at hf
    have h1 := hp l (List.mem_cons_self ..)
    have h2 := ih n (by omega) (fun m hm => hp m (List.mem_cons_of_mem _ hm))
    unfold readHead
    rw [show linesText (l :: ls) ++ '\r' :: '\n' :: body =
        l ++ '\r' :: '\n' :: (linesText ls ++ '\r' :: '\n' :: body) from by
          simp [linesText], splitLine_plain h1.1]
    cases l with
    | nil => exact absurd rfl h1.2
    | cons c l => simp only [h2, Option.map_some]

private def optLine (pre : Str) : Option Str → List Str
  | some d => [pre ++ d]
  | none => []

/-- The header as lines, with the number in its place. -/
private def headLines (e : Env) (status : Nat) (num : Str) : List Str :=
  ["HTTP/1.1 ".toList ++ statusReply status] ++ optLine "Date: ".toList e.date ++
  ["Server: OLSRD ".toList ++ e.name, "Connection: close".toList] ++
  optLine "Content-Type: ".toList e.mime ++
  ["Access-Control-Allow-Origin: *".toList,
   "Access-Control-Allow-Methods: GET, POST, OPTIONS".toList,
   "Access-Control-Allow-Headers: Accept, Origin, X-Requested-With".toList,
   "Access-Control-Max-Age: 1728000".toList,
   "Content-Length: ".toList ++ num,
   "Cache-Control: no-cache".toList]

private theorem linesText_append (a b : List Str) : linesText (a ++ b) = linesText a ++ linesText b := by
  induction a with
  | nil => rfl
  | cons x a ih => simp [linesText, ih]

private theorem linesText_opt (pre : Str) (o : Option Str) :
    linesText (optLine pre o) = optField pre o := by
  cases o <;> simp [optLine, optField, linesText, crlf]

private theorem head_text (e : Env) (status : Nat) (num : Str) :
    headPre e status ++ num ++ headPost = linesText (headLines e status num) ++ ['\r', '\n'] := by
  unfold headLines headPre headPost
  simp only [linesText_append, linesText_opt]
  simp only [linesText, crlf, List.append_assoc, List.cons_append, List.nil_append]

private theorem statusReply_plain (status : Nat) : plain (statusReply status) := by
  unfold statusReply plain
  repeat' split
  all_goals decide

private theorem plain_append {a b : Str} (ha : plain a) (hb : plain b) : plain (a ++ b) := by
  intro c hc
  rcases List.mem_append.mp hc with h | h
  · exact ha c h
  · exact hb c h

private theorem headLines_plain (e : Env) (he : plainEnv e) (status : Nat) (num : Str)
    (hn : plain num) : ∀ l ∈ headLines e status num, plain l ∧ l ≠ [] := by
  obtain ⟨h1, h2, h3⟩ := he
  intro l hl
  have lit : ∀ s ∈ ["HTTP/1.1 ".toList, "Date: ".toList, "Server: OLSRD ".toList,
      "Connection: close".toList, "Content-Type: ".toList, "Access-Control-Allow-Origin: *".toList,
      "Access-Control-Allow-Methods: GET, POST, OPTIONS".toList,
      "Access-Control-Allow-Headers: Accept, Origin, X-Requested-With".toList,
      "Access-Control-Max-Age: 1728000".toList, "Content-Length: ".toList,
      "Cache-Control: no-cache".toList], plain s ∧ s ≠ [] := by unfold plain; decide
  have join : ∀ s ∈ ["HTTP/1.1 ".toList, "Date: ".toList, "Server: OLSRD ".toList,
      "Connection: close".toList, "Content-Type: ".toList, "Access-Control-Allow-Origin: *".toList,
      "Access-Control-Allow-Methods: GET, POST, OPTIONS".toList,
      "Access-Control-Allow-Headers: Accept, Origin, X-Requested-With".toList,
      "Access-Control-Max-Age: 1728000".toList, "Content-Length: ".toList,
      "Cache-Control: no-cache".toList], ∀ x, plain x → plain (s ++ x) ∧ s ++ x ≠ [] := by
    intro s hs x hx
    exact ⟨plain_append (lit s hs).1 hx, by
      intro h; exact (lit s hs).2 (List.append_eq_nil_iff.mp h).1⟩
  unfold headLines at hl
  simp only [List.mem_append, List.mem_cons, List.not_mem_nil, or_false] at hl
  rcases hl with ((((hl | hl) | hl | hl) | hl) | hl | hl | hl | hl | hl | hl)
  · rw [hl]; exact join _ (by decide) _ (statusReply_plain status)
  · cases hd : e.date with
    | none => rw [hd] at hl; cases hl
    | some d =>
      rw [hd] at hl
      rw [List.mem_singleton.mp hl]
      exact join _ (by decide) _ (h3 d hd)
  · rw [hl]; exact join _ (by decide) _ h1
  · rw [hl]; exact lit _ (by decide)
  · cases hm : e.mime with
    | none => rw [hm] at hl; cases hl
    | some m =>
      rw [hm] at hl
      rw [List.mem_singleton.mp hl]
      exact join _ (by decide) _ (h2 m hm)
  · rw [hl]; exact lit _ (by decide)
  · rw [hl]; exact lit _ (by decide)
  · rw [hl]; exact lit _ (by decide)
  · rw [hl]; exact lit _ (by decide)
  · rw [hl]; exact join _ (by decide) _ hn
  · rw [hl]; exact lit _ (by decide)

private theorem linesText_length (ls : List Str) : ls.length ≤ (linesText ls).length := by
  induction ls with
  | nil => exact Nat.le_refl _
  | cons l ls ih =>
    simp only [linesText, List.length_append, List.length_cons]
    omega

private theorem decF_length (f n : Nat) (h : n < 10 ^ f) : ∀ g, (decF (f + g) n).length ≤ max f 1 := by
  intro g
  induction f generalizing n with
  | zero =>
    have : n = 0 := by simpa using h
    subst this
    cases g with
    | zero => simp [decF]
    | succ g =>
      rw [Nat.zero_add]
      unfold decF
      simp
  | succ f ih =>
    rw [show f + 1 + g = (f + g) + 1 from by omega]
    unfold decF
    by_cases h10 : n < 10
    · rw [if_pos h10]; simp
    · rw [if_neg h10]
      have hlt : n / 10 < 10 ^ f := by
        rw [Nat.pow_succ] at h
        exact Nat.div_lt_of_lt_mul (by omega)
      have := ih (n / 10) hlt
      simp only [List.length_append, List.length_cons, List.length_nil]
      have hf1 : 1 ≤ f := by
        cases f with
        | zero => simp at h; omega
        | succ f => omega
      omega

private theorem dec_nat_length (n : Nat) (h : n < 2 ^ 31) : (dec (n : Int)).length ≤ 10 := by
  unfold dec
  rw [if_neg (by omega)]
  have : ((n : Int)).natAbs = n := by omega
  rw [this]
  have := decF_length 10 n (by omega) 10
  simpa using this

private theorem stripWord_self (w s : Str) : stripWord w (w ++ s) = some s := by
  induction w with
  | nil => rfl
  | cons c w ih => simp only [List.cons_append, stripWord, if_true]; exact ih

private theorem field_lines (e : Env) (status n : Nat) (hn : n < 2 ^ 31) (k : Nat) :
    field "Content-Length".toList (headLines e status (dec (n : Int) ++ List.replicate k ' ')) = some n := by
  have hfn : fieldNumber (dec (n : Int) ++ List.replicate k ' ') = some n := by
    unfold fieldNumber
    have hd : dec (n : Int) = decF 20 n := by
      unfold dec
      rw [if_neg (by omega)]
      have : ((n : Int)).natAbs = n := by omega
      rw [this]
    rw [hd, spanDigits_stop (decF_digits 20 n) (by
      intro c r hr
      cases k with
      | zero => simp at hr
      | succ k =>
        rw [List.replicate_succ] at hr
        cases hr
        decide)]
    simp only []
    rw [if_neg (decF_ne_nil 19 n), if_pos (by simp), digitsVal_decF 19 n (by omega)]
  have skip : ∀ (l : Str) (r : List Str), stripWord ("Content-Length".toList ++ [':', ' ']) l = none →
      field "Content-Length".toList (l :: r) = field "Content-Length".toList r := by
    intro l r h
    simp only [field, h]
  have hit : ∀ (v : Str) (r : List Str),
      field "Content-Length".toList (("Content-Length: ".toList ++ v) :: r) = fieldNumber v := by
    intro v r
    simp only [field]
    rw [show "Content-Length".toList ++ [':', ' '] = "Content-Length: ".toList from by decide,
      stripWord_self]
  have hopt : ∀ (pre : Str) (o : Option Str) (r : List Str),
      (∀ d, stripWord ("Content-Length".toList ++ [':', ' ']) (pre ++ d) = none) →
      field "Content-Length".toList (optLine pre o ++ r) = field "Content-Length".toList r := by
    intro pre o r h
    cases o with
    | none => rfl
    | some d => exact skip _ _ (h d)
  unfold headLines
  simp only [List.append_assoc, List.cons_append, List.nil_append]
  rw [skip _ _ (by rfl), hopt _ _ _ (by intro d; rfl), skip _ _ (by rfl), skip _ _ (by rfl),
    hopt _ _ _ (by intro d; rfl), skip _ _ (by rfl), skip _ _ (by rfl), skip _ _ (by rfl),
    skip _ _ (by rfl), hit, hfn]

private theorem adjust_text (e : Env) (status : Nat) (rest : Str) (hr : rest.length < 2 ^ 31) :
    ∃ k, adjust (headPre e status ++ List.replicate 12 ' ' ++ headPost ++ rest)
        (headPre e status).length (rest.length : Int) =
      headPre e status ++ (dec (rest.length : Int) ++ List.replicate k ' ') ++ headPost ++ rest := by
  have hl := dec_nat_length rest.length hr
  refine ⟨12 - (dec (rest.length : Int)).length, ?_⟩
  unfold adjust
  rw [List.take_of_length_le (by omega : (dec (rest.length : Int)).length ≤ 12)]
  have h1 : headPre e status ++ List.replicate 12 ' ' ++ headPost ++ rest =
      headPre e status ++ (List.replicate 12 ' ' ++ (headPost ++ rest)) := by
    simp only [List.append_assoc]
  rw [h1, List.take_left' rfl, ← List.drop_drop, List.drop_left' rfl]
  rw [List.drop_append_of_le_length (by simp; omega), List.drop_replicate]
  simp only [List.append_assoc]

private theorem response (e : Env) (he : plainEnv e) (status : Nat) (rest : Str)
    (hr : rest.length < 2 ^ 31) :
    ∃ ls, readHead ((adjust ((headerBuild e status).1 ++ rest) (headerBuild e status).2
          (rest.length : Int)).length + 1)
        (adjust ((headerBuild e status).1 ++ rest) (headerBuild e status).2 (rest.length : Int)) =
        some (("HTTP/1.1 ".toList ++ statusReply status) :: ls, rest) ∧
      field "Content-Length".toList ls = some rest.length := by
  obtain ⟨k, hk⟩ := adjust_text e status rest hr
  have hb : adjust ((headerBuild e status).1 ++ rest) (headerBuild e status).2 (rest.length : Int) =
      linesText (headLines e status (dec (rest.length : Int) ++ List.replicate k ' ')) ++
        '\r' :: '\n' :: rest := by
    show adjust (headPre e status ++ List.replicate 12 ' ' ++ headPost ++ rest)
        (headPre e status).length (rest.length : Int) = _
    rw [hk, head_text]
    simp
  rw [hb]
  have hdigits : plain (dec (rest.length : Int) ++ List.replicate k ' ') := by
    refine plain_append ?_ ?_
    · intro c hc
      unfold dec at hc
      rw [if_neg (by omega)] at hc
      have := decF_digits _ _ c hc
      intro h; rw [h] at this; exact absurd this (by decide)
    · intro c hc
      rw [List.eq_of_mem_replicate hc]; decide
  have hfield := field_lines e status rest.length hr k
  rw [readHead_lines _ _ _ (by
    have := linesText_length (headLines e status (dec (rest.length : Int) ++ List.replicate k ' '))
    simp only [List.length_append, List.length_cons]
    omega) (headLines_plain e he status _ hdigits)]
  unfold headLines at hfield ⊢
  simp only [List.append_assoc, List.cons_append, List.nil_append] at hfield ⊢
  refine ⟨_, rfl, ?_⟩
  simp only [field] at hfield
  rw [show stripWord ("Content-Length".toList ++ [':', ' '])
    ("HTTP/1.1 ".toList ++ statusReply status) = none from rfl] at hfield
  exact hfield

/-! ### C113 -/

/-- The status of the reply: "no content" instead of "OK" when the reports wrote
nothing. -/
def finalStatus (status outputLength : Nat) : Nat :=
  if status = 200 ∧ outputLength = 0 then 204 else status

/-- The payload of the reply: the text of the reports, or the error text. -/
def payload (status : Nat) (body : Str) (outputLength : Nat) (err : Nat → Str) : Str :=
  if finalStatus status outputLength = 200 then body else err (finalStatus status outputLength)

private theorem headerBuild_ne (e : Env) (st : Nat) : (headerBuild e st).1.length ≠ 0 := by
  unfold headerBuild
  simp only [List.length_append, List.length_replicate]
  omega

private theorem send_key (hdr : Nat → Str × Nat) (hne : ∀ st, (hdr st).1.length ≠ 0) (status : Nat)
    (body : Str) (outputLength : Nat) (err : Nat → Str) :
    finish true (withError (withBody hdr status body outputLength) err) =
      adjust ((hdr (finalStatus status outputLength)).1 ++ payload status body outputLength err)
        (hdr (finalStatus status outputLength)).2
        ((payload status body outputLength err).length : Int) := by
  have fin : ∀ (H : Str × Nat) (st : Nat) (b : Str),
      finish true { status := st, buf := H.1 ++ b, idx := H.2, hlen := H.1.length } =
        adjust (H.1 ++ b) H.2 (b.length : Int) := by
    intro H st b
    unfold finish
    rw [if_pos rfl]
    have : (((H.1 ++ b).length : Nat) : Int) - (H.1.length : Int) = (b.length : Int) := by
      rw [List.length_append]; omega
    simp only [this]
  unfold withBody payload finalStatus
  by_cases h1 : status = 200
  · rw [if_pos (show status = OK from h1)]
    by_cases h2 : outputLength = 0
    · rw [if_pos (Or.inr h2), if_pos ⟨h1, h2⟩, if_neg (by decide)]
      exact fin (hdr 204) _ _
    · have h3 := hne status
      rw [if_neg (by
        rintro (h | h)
        · have : (hdr status).1.length + body.length = 0 := h
          omega
        · exact h2 h), if_neg (fun h => h2 h.2), if_pos h1]
      unfold withError
      rw [if_neg (fun h => h h1)]
      exact fin (hdr status) _ _
  · rw [if_neg (show ¬ status = OK from h1), if_neg (fun h => h1 h.1), if_neg h1]
    unfold withError
    rw [if_pos (show (begin_ hdr status).status ≠ OK from h1)]
    exact fin (hdr status) _ _

/-- A reply with headers is an HTTP response: the status line gives the status,
there is a header field `Content-Length` with exactly the number of characters
that follow the empty line, and those are the payload. -/
theorem C113_framing (e : Env) (he : plainEnv e) (status : Nat) (body : Str) (outputLength : Nat)
    (err : Nat → Str) (hlen : (payload status body outputLength err).length < 2 ^ 31) :
    ∃ ls, readHead ((sendInfo e true status body outputLength err).length + 1)
        (sendInfo e true status body outputLength err) =
        some (("HTTP/1.1 ".toList ++ statusReply (finalStatus status outputLength)) :: ls,
          payload status body outputLength err) ∧
      field "Content-Length".toList ls = some (payload status body outputLength err).length := by
  have key : sendInfo e true status body outputLength err =
      adjust ((headerBuild e (finalStatus status outputLength)).1 ++ payload status body outputLength err)
        (headerBuild e (finalStatus status outputLength)).2
        ((payload status body outputLength err).length : Int) := by
    unfold sendInfo
    rw [show header e true = headerBuild e from by funext st; rfl]
    have hne := headerBuild_ne e
    generalize headerBuild e = hdr at hne ⊢
    exact send_key hdr hne status body outputLength err
  rw [key]
  exact response e he _ _ hlen

/-- The statuses used by the info plugins with the reasons given to them by the
HTTP specification (RFC 9110, section 15). -/
def knownStatus : List (Nat × Str) :=
  [(200, "OK".toList), (204, "No Content".toList), (403, "Forbidden".toList), (404, "Not Found".toList),
   (408, "Request Timeout".toList), (413, "Request Entity Too Large".toList),
   (500, "Internal Server Error".toList), (503, "Service Unavailable".toList)]

/-- The status line names the number of the status and its reason; any other
status is told as an internal error. -/
theorem C113_status (status : Nat) :
    (∀ reason, (status, reason) ∈ knownStatus → statusReply status = dec status ++ ' ' :: reason) ∧
    ((∀ reason, (status, reason) ∉ knownStatus) → statusReply status = dec 500 ++ ' ' :: "Internal Server Error".toList) := by
  constructor
  · intro reason h
    simp only [knownStatus, List.mem_cons, Prod.mk.injEq, List.not_mem_nil, or_false] at h
    rcases h with ⟨h, h'⟩ | ⟨h, h'⟩ | ⟨h, h'⟩ | ⟨h, h'⟩ | ⟨h, h'⟩ | ⟨h, h'⟩ | ⟨h, h'⟩ | ⟨h, h'⟩ <;>
      subst h <;> subst h' <;> decide
  · intro h
    have hn : ∀ k ∈ [200, 204, 403, 404, 408, 413, 503], status ≠ k := by
      intro k hk he
      subst he
      simp only [List.mem_cons, List.not_mem_nil, or_false] at hk
      rcases hk with rfl | rfl | rfl | rfl | rfl | rfl | rfl <;>
        exact h _ (by simp only [knownStatus, List.mem_cons, Prod.mk.injEq]; simp; rfl)
    unfold statusReply
    rw [if_neg (hn 204 (by decide)), if_neg (hn 403 (by decide)), if_neg (hn 404 (by decide)),
      if_neg (hn 408 (by decide)), if_neg (hn 413 (by decide)), if_neg (hn 503 (by decide)),
      if_neg (hn 200 (by decide))]
    decide

/-- 404 is a known status; 999 is not. -/
example : statusReply 404 = "404 Not Found".toList ∧ statusReply 999 = "500 Internal Server Error".toList :=
  by decide

/-- Without headers the reply is the payload. -/
theorem C113_plain (e : Env) (status : Nat) (body : Str) (outputLength : Nat) (err : Nat → Str)
    (hb : body.length = 0 → outputLength = 0) :
    sendInfo e false status body outputLength err = payload status body outputLength err := by
  unfold sendInfo
  rw [show header e false = fun _ => ([], 0) from by funext st; rfl]
  unfold finish
  rw [if_neg (by decide)]
  unfold withBody payload
  by_cases h1 : status = 200
  · rw [if_pos (show status = OK from h1)]
    by_cases h2 : outputLength = 0
    · have hf : finalStatus status outputLength = 204 := if_pos ⟨h1, h2⟩
      rw [if_pos (Or.inr h2), hf, if_neg (by decide)]
      rfl
    · have hf : finalStatus status outputLength = status := if_neg (fun h => h2 h.2)
      rw [if_neg (by
        rintro (h | h)
        · exact h2 (hb (by omega))
        · exact h2 h), hf, if_pos h1]
      unfold withError
      rw [if_neg (fun h => h h1)]
      rfl
  · have hf : finalStatus status outputLength = status := if_neg (fun h => h1 h.1)
    rw [if_neg (show ¬ status = OK from h1), hf, if_neg h1]
    unfold withError
    rw [if_pos (show (begin_ (fun _ => ([], 0)) status).status ≠ OK from h1)]
    rfl

/-- A reply of jsoninfo with a body of eleven characters. -/
example :
    (readHead 1000 (sendInfo ⟨"JSONINFO".toList, some "application/vnd.api+json".toList,
      some "Tue, 17 Nov 2026 15:00:00 GMT".toList⟩ true 200 "{\"pid\": 7}\n".toList 9 (fun _ => []))).map
      (fun q => (q.1.length, q.2)) = some (11, "{\"pid\": 7}\n".toList) ∧
    plainEnv ⟨"JSONINFO".toList, some "application/vnd.api+json".toList, none⟩ := by
  refine ⟨by decide +kernel, ?_, ?_, ?_⟩
  · unfold plain; decide
  · intro m hm; cases hm; unfold plain; decide
  · intro d hd; cases hd

/-! ### C114 -/

/-- An IPv4 host may connect exactly if every host may, or it is the accepted
host, or localhost is allowed and it is localhost. -/
theorem C114_ipv4 (accept peer : Nat) (allowLocalhost : Bool) :
    denied4 accept peer allowLocalhost = false ↔
      (accept = 0 ∨ peer = accept ∨ (allowLocalhost = true ∧ peer = 127 * 2 ^ 24 + 1)) := by
  unfold denied4
  simp only [Bool.and_eq_false_iff, Bool.or_eq_false_iff, decide_eq_false_iff_not, ne_eq,
    Decidable.not_not, Bool.not_eq_false']
  constructor
  · rintro ((h | h) | h)
    · exact Or.inl h
    · exact Or.inr (Or.inl h)
    · exact Or.inr (Or.inr ⟨h.1, h.2⟩)
  · rintro (h | h | h)
    · exact Or.inl (Or.inl h)
    · exact Or.inl (Or.inr h)
    · exact Or.inr ⟨h.1, h.2⟩

/-- The same holds for IPv6 as long as localhost is not allowed separately.
Missing: with `allowlocalhost` it is false, see `C114_ipv6_negation`. -/
theorem C114_ipv6_partial (accept peer : Nat) :
    denied6 accept peer false = false ↔ (accept = 0 ∨ peer = accept) := by
  unfold denied6
  simp only [Bool.not_false, Bool.true_or, Bool.and_true, Bool.and_eq_false_iff,
    decide_eq_false_iff_not, ne_eq, Decidable.not_not]

/-- With `allowlocalhost` an IPv6 node tests the wrong address: with the default
accepted address `::1` every host may connect, and with any other accepted
address localhost may not. -/
theorem C114_ipv6_negation :
    (∀ peer, denied6 1 peer true = false) ∧
    (∀ accept, accept ≠ 0 → accept ≠ 1 → denied6 accept 1 true = true) := by
  constructor
  · intro peer
    simp [denied6]
  · intro accept h0 h1
    simp [denied6, h0, h1]
    omega

example : denied4 0x0a000001 0x7f000001 true = false ∧ denied4 0x0a000001 0x0a000002 true = true ∧
    denied6 1 0x20010db8000000000000000000000042 true = false ∧
    denied6 1 0x20010db8000000000000000000000042 false = true := by decide

end Verif.InfoHttp
