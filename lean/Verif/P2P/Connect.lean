import Verif.Common
set_option linter.unusedSimpArgs false
set_option linter.unusedVariables false
/-!
# C110: `gt connect`
(bin/src/cs.rs:77-153 `load_config`, `validate_config`, `run_connect`; bin/src/peer/mod.rs:61-88
`process_connect`; bin/src/peer/connect.rs:69-231 `new`, `send_http_request`, `forward_data_with_server`;
bin/src/manager.rs:235-307 `handle_stdout`, 662-682 `read_json`)

The connector reads lines from its standard input and sends each to a server in a request of its own. It is
a child of the manager, which speaks with its children by JSON messages on their standard input and output.

Simplified: one line is worked off before the next is taken from the queue (bin/src/peer/mod.rs:77-85), so the queue of 8
lines between the two tasks has no effect on what is sent; HTTP is one outcome per request; the WebRTC
connection, which nobody uses (the future of `send_offer` is dropped unpolled, bin/src/peer/mod.rs:67, so no offer is
ever made), is left out.
-/
namespace Verif.P2P.Connect

/-! ## Reading lines (tokio `Lines::next_line`) -/

/-- bin/src/peer/mod.rs:71-73: the lines with their ends. -/
def raw : Bytes → List Bytes
  | [] => []
  | b :: t =>
    if b = 10 then [10] :: raw t
    else match raw t with
      | [] => [[b]]
      | l :: ls => (b :: l) :: ls

/-- tokio `next_line`: the end of the line, `\n` or `\r\n`, is removed. -/
def strip (l : Bytes) : Bytes :=
  if l.getLast? = some 10 then
    if l.dropLast.getLast? = some 13 then l.dropLast.dropLast else l.dropLast
  else l

/-! ## Configuration -/

structure Options where
  addr : List Char
  hostPrefix : List Char
deriving DecidableEq, Repr

/-- What reading the configuration file gives. -/
inductive File where
  /-- it does not exist or cannot be read, or is blank, or is no such YAML -/
  | unusable
  | options (o : Options)
deriving DecidableEq, Repr

/-- `str::trim().is_empty()` -/
def blank (t : List Char) : Bool := t.all Char.isWhitespace

/-- bin/src/cs.rs:77-117 `load_config` and `validate_config` -/
def load : File → Option Options
  | .unusable => none
  | .options o => if blank o.addr || blank o.hostPrefix then none else some o

/-- bin/src/cs.rs:119-138: the options in use, or `none` if the process ends. Without `-c` the default is used, whose
texts are empty. -/
def options : Option File → Option Options
  | none => some ⟨[], []⟩
  | some f => load f

/-! ## Forwarding -/

/-- The outcome of sending one request. -/
inductive Resp where
  /-- the server answered with this status -/
  | status (code : Nat)
  /-- no answer, or the request could not even be built -/
  | fail
deriving DecidableEq, Repr

structure Req where
  addr : List Char
  host : List Char
  body : Bytes
deriving DecidableEq, Repr

/-- bin/src/peer/connect.rs:150-213: a request without an address cannot be built (`relative URL without a base`); a status
that is an error is logged only. `send` is the network: the outcome of the `n`-th request. -/
def forward (send : Nat → Req → Resp) (o : Options) (n : Nat) (line : Bytes) : Resp :=
  if o.addr = [] then .fail else send n ⟨o.addr, o.hostPrefix, line⟩

structure St where
  sent : List Req := []
  /-- what is printed for each line: `true` for "Successfully forwarded", `false` for "Error forwarding data" -/
  reports : List (Bytes × Bool) := []
deriving DecidableEq, Repr

/-- bin/src/peer/mod.rs:76-85: one line. -/
def stepLine (send : Nat → Req → Resp) (o : Options) (s : St) (l : Bytes) : St :=
  let line := strip l
  let r := forward send o s.sent.length line
  { sent := if o.addr = [] then s.sent else s.sent ++ [⟨o.addr, o.hostPrefix, line⟩],
    reports := s.reports ++ [(line, match r with | .status _ => true | .fail => false)] }

/-- bin/src/peer/mod.rs:70-86: a line that is no UTF-8 ends the task that reads (`unwrap`), and so the work. -/
def run (utf8 : Bytes → Bool) (send : Nat → Req → Resp) (o : Options) (input : Bytes) : St :=
  ((raw input).takeWhile utf8).foldl (stepLine send o) {}

/-! ## The manager's side -/

/-- bin/src/manager.rs:662-682 `read_json` and 244-306: the messages the manager reads from a child; after the
first failure it reads no more. The number bounds the messages. -/
def hearsN : Nat → Bytes → List Bytes
  | 0, _ => []
  | n + 1, bs =>
    match bs with
    | a :: b :: c :: d :: rest =>
      if rd32 a b c d > 8192 then []
      else if rest.length < rd32 a b c d then []
      else rest.take (rd32 a b c d) :: hearsN n (rest.drop (rd32 a b c d))
    | _ => []

/-- every message takes four bytes at least -/
def hears (bs : Bytes) : List Bytes := hearsN bs.length bs

/-- bin/src/manager.rs:684-701 `write_json` -/
def frame (json : Bytes) : Bytes := be32 json.length ++ json

/-- bin/src/cs.rs:97 ("解析成功: ") -/
def bannerConfig : Bytes :=
  [0xE8, 0xA7, 0xA3, 0xE6, 0x9E, 0x90, 0xE6, 0x88, 0x90, 0xE5, 0x8A, 0x9F, 0x3A, 0x20]

/-- bin/src/cs.rs:135 ("No config file specified, using default configuration"), its beginning -/
def bannerNone : Bytes := [0x4E, 0x6F, 0x20, 0x63, 0x6F, 0x6E, 0x66, 0x69, 0x67, 0x20]

/-- What a running connector writes to its standard output: the banner first, then anything else, among it the
message of bin/src/peer/connect.rs:78-84. -/
def stdout (f : Option File) (rest : Bytes) : Bytes :=
  match f with
  | none => bannerNone ++ rest
  | some _ => bannerConfig ++ rest

/-- bin/src/manager.rs:599-625 `process_shutdown` with 766-775 `send_op`: the manager sends its message and waits for
an answer, at most 120 s, after which it kills. `answer`: when the child's answer is read, in seconds. -/
def stopTime (answer : Option Nat) : Nat :=
  match answer with
  | some t => min t 120
  | none => 120

/-! ## Specification -/

/-- A text divided into lines: every piece but the last ends with the only line feed in it. -/
inductive Lines : Bytes → List Bytes → Prop where
  | nil : Lines [] []
  | last (l : Bytes) : l ≠ [] → 10 ∉ l → Lines l [l]
  | cons (l t : Bytes) (ls : List Bytes) : 10 ∉ l → Lines t ls → Lines (l ++ 10 :: t) ((l ++ [10]) :: ls)

/-- what a line says, without its end -/
inductive Content : Bytes → Bytes → Prop where
  | lf (l : Bytes) : l.getLast? ≠ some 13 → Content (l ++ [10]) l
  | crlf (l : Bytes) : Content (l ++ [13, 10]) l
  | open_ (l : Bytes) : l.getLast? ≠ some 10 → Content l l

/-- The full property C110 about the reports: success is reported exactly for the lines the server took. -/
def ReportsTruth (utf8 : Bytes → Bool) (send : Nat → Req → Resp) (o : Options) (input : Bytes) : Prop :=
  ∀ n l ok, (run utf8 send o input).reports[n]? = some (l, ok) →
    (ok = true ↔ ∃ c, send n ⟨o.addr, o.hostPrefix, l⟩ = .status c ∧ 200 ≤ c ∧ c < 300)

/-- The full property C110 about stopping: the connector acknowledges (any acknowledgement is a message the
manager hears). -/
def CanAcknowledge (f : Option File) : Prop := ∃ rest, hears (stdout f rest) ≠ []

/-! ## Proofs -/

theorem raw_lines (bs : Bytes) : Lines bs (raw bs) := by
  induction bs with
  | nil => exact .nil
  | cons b t ih =>
    unfold raw
    by_cases hb : b = 10
    · subst hb
      simp only [if_true]
      exact Lines.cons [] t (raw t) (by simp) ih
    · simp only [hb, if_false]
      have hb' : (10 : UInt8) ≠ b := fun e => hb e.symm
      generalize raw t = ls at ih
      cases ih with
      | nil => exact .last [b] (by simp) (by simpa using hb')
      | last l h1 h2 => exact .last (b :: t) (by simp) (by simp [h2, hb'])
      | cons l t' ls h1 h2 =>
        exact Lines.cons (b :: l) t' _ (by simp [h1, hb']) h2

/-- **C110** What is read are the lines of the input, none lost, none changed. -/
theorem lines_complete (bs : Bytes) : Lines bs (raw bs) ∧ (raw bs).flatten = bs := by
  refine ⟨raw_lines bs, ?_⟩
  have : ∀ (bs : Bytes) (ls : List Bytes), Lines bs ls → ls.flatten = bs := by
    intro bs ls h
    induction h with
    | nil => rfl
    | last l _ _ => simp
    | cons l t ls h1 h2 ih => simp [ih]
  exact this _ _ (raw_lines bs)

theorem strip_content (l : Bytes) : Content l (strip l) := by
  unfold strip
  split
  · rename_i h
    obtain ⟨m, rfl⟩ : ∃ m, l = m ++ [10] := by
      obtain ⟨m, e⟩ := List.getLast?_eq_some_iff.mp h
      exact ⟨m, e⟩
    simp only [List.dropLast_concat]
    split
    · rename_i h2
      obtain ⟨k, rfl⟩ := List.getLast?_eq_some_iff.mp h2
      simp only [List.dropLast_concat]
      have := Content.crlf k
      simpa using this
    · rename_i h2
      exact Content.lf m h2
  · rename_i h
    exact Content.open_ l h

theorem fold_inv (send : Nat → Req → Resp) (o : Options) (ho : o.addr ≠ []) (ls : List Bytes) (s : St)
    (hs : s.reports.length = s.sent.length)
    (hr : ∀ n l ok, s.reports[n]? = some (l, ok) → (ok = true ↔ ∃ c, forward send o n l = .status c)) :
    (ls.foldl (stepLine send o) s).sent = s.sent ++ ls.map (fun l => ⟨o.addr, o.hostPrefix, strip l⟩) ∧
    (ls.foldl (stepLine send o) s).reports.map Prod.fst = s.reports.map Prod.fst ++ ls.map strip ∧
    (∀ n l ok, (ls.foldl (stepLine send o) s).reports[n]? = some (l, ok) →
      (ok = true ↔ ∃ c, forward send o n l = .status c)) := by
  induction ls generalizing s with
  | nil => simpa using hr
  | cons l ls ih =>
    have hlen : (stepLine send o s l).reports.length = (stepLine send o s l).sent.length := by
      simp [stepLine, ho, hs]
    have hrep : ∀ n l' ok, (stepLine send o s l).reports[n]? = some (l', ok) →
        (ok = true ↔ ∃ c, forward send o n l' = .status c) := by
      intro n l' ok h
      simp only [stepLine] at h
      rw [List.getElem?_append] at h
      split at h
      · exact hr n l' ok h
      · rename_i hn
        have hn' : n = s.reports.length := by
          have := (List.getElem?_eq_some_iff.mp h).1
          simp at this
          omega
        subst hn'
        simp at h
        obtain ⟨rfl, rfl⟩ := h
        rw [hs]
        cases forward send o s.sent.length (strip l) with
        | status c => simp
        | fail => simp
    obtain ⟨h1, h2, h3⟩ := ih (stepLine send o s l) hlen hrep
    refine ⟨?_, ?_, h3⟩
    · simp only [List.foldl_cons, h1, List.map_cons]
      simp [stepLine, ho]
    · simp only [List.foldl_cons, h2, List.map_cons]
      simp [stepLine]

/-- **C110** Every line, up to the first that is no text, is sent exactly once, in order, whatever becomes of
the others, in a request to the configured address and host. -/
theorem every_line_sent (utf8 : Bytes → Bool) (send : Nat → Req → Resp) {f : File} {o : Options}
    (ho : options (some f) = some o) (input : Bytes) :
    (run utf8 send o input).sent =
      ((raw input).takeWhile utf8).map (fun l => ⟨o.addr, o.hostPrefix, strip l⟩) ∧
    (run utf8 send o input).reports.map Prod.fst = ((raw input).takeWhile utf8).map strip ∧
    ∀ l, Content l (strip l) := by
  have hne : o.addr ≠ [] := by
    intro e
    cases f with
    | unusable => simp [options, load] at ho
    | options o' =>
      simp only [options, load] at ho
      split at ho
      · simp at ho
      · rename_i hb
        cases ho
        apply hb
        simp [blank, e]
  obtain ⟨h1, h2, _⟩ := fold_inv send o hne ((raw input).takeWhile utf8) {} rfl (by simp)
  exact ⟨by simpa [run] using h1, by simpa [run] using h2, strip_content⟩

/-- **C110** The connector refuses a configuration that lacks the address or the host. -/
theorem configuration_checked (f : File) :
    options (some f) = none ↔ f = .unusable ∨ ∃ o, f = .options o ∧ (blank o.addr ∨ blank o.hostPrefix) := by
  cases f with
  | unusable => simp [options, load]
  | options o =>
    simp only [options, load]
    split
    · rename_i h; simp at h; simp [h]
    · rename_i h; simp at h; simp [h]

/-- **C110** (part) What is printed tells whether the server answered at all. -/
theorem reports_answers_partial (utf8 : Bytes → Bool) (send : Nat → Req → Resp) {o : Options} (ho : o.addr ≠ [])
    (input : Bytes) {n : Nat} {l : Bytes} {ok : Bool} (h : (run utf8 send o input).reports[n]? = some (l, ok)) :
    ok = true ↔ ∃ c, send n ⟨o.addr, o.hostPrefix, l⟩ = .status c := by
  have := (fold_inv send o ho ((raw input).takeWhile utf8) {} rfl (by simp)).2.2 n l ok h
  rw [forward, if_neg ho] at this
  exact this

/-- **C110 fails**: a line the server refused is reported as forwarded. -/
theorem refused_reported_forwarded (utf8 : Bytes → Bool) (send : Nat → Req → Resp) {o : Options}
    (ho : o.addr ≠ []) (input : Bytes) {n : Nat} {l : Bytes} {ok : Bool}
    (h : (run utf8 send o input).reports[n]? = some (l, ok)) {c : Nat} 
    (hc : send n ⟨o.addr, o.hostPrefix, l⟩ = .status c)
    (hbad : c < 200 ∨ 300 ≤ c) : ok = true ∧ ¬ ReportsTruth utf8 send o input := by
  have hok := (reports_answers_partial utf8 send ho input h).mpr ⟨c, hc⟩
  refine ⟨hok, ?_⟩
  intro ht
  obtain ⟨c', hc', h1, h2⟩ := (ht n l ok h).mp hok
  rw [hc] at hc'
  cases hc'
  omega

/-- **C110 fails**: without a configuration file the connector starts and sends nothing, ever. -/
theorem without_configuration_nothing_sent (utf8 : Bytes → Bool) (send : Nat → Req → Resp) (input : Bytes) :
    ∃ o, options none = some o ∧ (run utf8 send o input).sent = [] := by
  refine ⟨⟨[], []⟩, rfl, ?_⟩
  unfold run
  generalize (raw input).takeWhile utf8 = ls
  have : ∀ s : St, (ls.foldl (stepLine send ⟨[], []⟩) s).sent = s.sent := by
    induction ls with
    | nil => intro s; rfl
    | cons l ls ih => intro s; simp only [List.foldl_cons]; rw [ih]; simp [stepLine]
  exact this {}

/-- **C110 fails**: whatever the connector writes, the manager hears nothing from it: neither that it is ready,
nor that it has shut down. -/
theorem manager_hears_nothing (f : Option File) (rest : Bytes) : hears (stdout f rest) = [] := by
  cases f with
  | none => simp [hears, stdout, bannerNone, hearsN, rd32]
  | some f => simp [hears, stdout, bannerConfig, hearsN, rd32]

theorem cannot_acknowledge (f : Option File) : ¬ CanAcknowledge f := by
  rintro ⟨rest, h⟩
  exact h (manager_hears_nothing f rest)

/-- So stopping it takes the full 120 seconds, and it is killed. -/
theorem stop_takes_two_minutes (f : Option File) (rest : Bytes) (answer : Option Nat)
    (h : answer ≠ none → hears (stdout f rest) ≠ []) : stopTime answer = 120 := by
  cases answer with
  | none => rfl
  | some t => exact absurd (manager_hears_nothing f rest) (h (by simp))

/-- while a child that keeps to the protocol is heard -/
theorem protocol_heard (msgs : List Bytes) (h : ∀ m ∈ msgs, m.length ≤ 8192) :
    hears (msgs.map frame).flatten = msgs := by
  have key : ∀ (msgs : List Bytes), (∀ m ∈ msgs, m.length ≤ 8192) → ∀ n, msgs.length ≤ n →
      hearsN n (msgs.map frame).flatten = msgs := by
    intro msgs
    induction msgs with
    | nil => intro _ n _; cases n <;> rfl
    | cons m ms ih =>
      intro h n hn
      have hm := h m (by simp)
      have hl : m.length < 4294967296 := by omega
      have e := rd32_be32 hl
      cases n with
      | zero => simp at hn
      | succ n =>
        simp only [List.map_cons, List.flatten_cons, frame, be32, List.cons_append, List.nil_append]
        simp only [hearsN, e]
        rw [if_neg (by omega), if_neg (by simp)]
        simp only [List.take_left, List.drop_left]
        rw [ih (fun x hx => h x (by simp [hx])) n (by simpa using hn)]
  refine key msgs h _ ?_
  clear h
  induction msgs with
  | nil => simp
  | cons m ms ih => simp [frame, be32] at ih ⊢; omega

/-- **C110 fails**: the manager's request to shut down is taken for (the beginning of) a line; when the
standard input ends it is sent to the server. -/
theorem shutdown_message_forwarded (utf8 : Bytes → Bool) (send : Nat → Req → Resp) {o : Options}
    (ho : o.addr ≠ []) {json : Bytes} (hj : 10 ∉ frame json) (hne : json ≠ []) (hu : utf8 (frame json) = true) :
    (run utf8 send o (frame json)).sent = [⟨o.addr, o.hostPrefix, frame json⟩] := by
  have hr : raw (frame json) = [frame json] := by
    have hl := raw_lines (frame json)
    generalize raw (frame json) = ls at hl
    cases hfr : frame json with
    | nil => simp [frame, be32] at hfr
    | cons a t =>
      rw [hfr] at hl hj
      generalize hx : a :: t = x at hl hj
      cases hl with
      | nil => simp at hx
      | last l _ _ => rfl
      | cons l t ls h1 h2 => simp at hj
  have hs : strip (frame json) = frame json := by
    unfold strip
    rw [if_neg]
    intro h
    obtain ⟨m, e⟩ := List.getLast?_eq_some_iff.mp h
    rw [e] at hj
    simp at hj
  obtain ⟨h1, _, _⟩ := fold_inv send o ho ((raw (frame json)).takeWhile utf8) {} rfl (by simp)
  have : (run utf8 send o (frame json)).sent = _ := h1
  rw [this, hr]
  simp [List.takeWhile, hu, hs]

/-! ## Witnesses -/

def o1 : Options := ⟨"http://s:80/x".toList, "web".toList⟩

example : (run (fun _ => true) (fun _ _ => .status 200) o1 [97, 10, 98, 13, 10, 10, 99]).sent.map (·.body) =
    [[97], [98], [], [99]] := by decide
example : options (some (.options o1)) = some o1 := by decide
/-- a 404 is reported as success -/
example : (run (fun _ => true) (fun _ _ => .status 404) o1 [97, 10]).reports = [([97], true)] := by decide
/-- `{"op":"shutdown"}` -/
def shutdownJson : Bytes := [123, 34, 111, 112, 34, 58, 34, 115, 104, 117, 116, 100, 111, 119, 110, 34, 125]
example : (run (fun _ => true) (fun _ _ => .status 200) o1 (frame shutdownJson)).sent.length = 1 := by decide
example : hears (frame shutdownJson ++ frame [1]) = [shutdownJson, [1]] := by
  have := protocol_heard [shutdownJson, [1]] (by intro m hm; simp at hm; rcases hm with rfl | rfl <;> decide)
  simpa using this

end Verif.P2P.Connect
