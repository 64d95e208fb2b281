import Verif.Common
import Verif.Client.Ping
/-!
# C121: one visitor that does not read, and the other visitors of the tunnel

A tunnel has one reader. On the server it is `readLoop` (libcs/server/conn.go:820-978): a data frame is
written to the visitor it is for by `r.WriteTo(task)` (line 935) before the next frame is looked at. The
client's reader does the same towards the local services (libcs/client/conn.go:460-506, called from
197-372). So a receiver that does not take its bytes holds up every other receiver of the same tunnel.

* on the server every single write has the deadline `Timeout` (`Connection.Write`,
  libcs/conn/conn.go:42-57; `newConn`, libcs/server/conn.go:59-66); 0 means none;
* on the client a local service is a plain `net.Conn` (`httpTask.conn`, libcs/client/task.go:37-46,
  `Write` 69-72): no write deadline at all, so the model is used with `T = 0`.

A frame is the list of the pieces in which `LimitedReader.WriteTo` writes it (libcs/bufio/reader.go:51-77: one
`Write` per buffer content), each with its own deadline. How the pieces are cut, and the wire format, are
C08-C12 and left open here. Time is a number; it passes only while the reader is blocked (the reader's own work
takes no time).

Not modelled: speed limits, the tunnel's own read and write errors, the visitor's read deadline (C39/C11 and
`close` here: a receiver may be closed at any time, for whatever reason), reuse of task numbers (C13): a
closed receiver stays closed.
-/
set_option linter.unusedSimpArgs false
set_option linter.unusedVariables false
set_option linter.unusedSectionVars false
namespace Verif.Tunnel.Stall

abbrev Bytes := List UInt8

/-- What the reader finds on the tunnel: a data frame for receiver `dst` (cut into pieces), or a ping. -/
inductive Item where
  | data (dst : Nat) (pieces : List Bytes)
  | ping
deriving DecidableEq, Repr

/-- A visitor (server) or local connection (client): the bytes it got, the bytes its socket would take now,
whether it is still open and known to the tunnel. -/
structure Sink where
  got : Bytes := []
  room : Nat := 0
  isOpen : Bool := true
deriving DecidableEq, Repr

/-- The frame being written: the rest of the piece being written, the pieces after it, and the deadline of
this write. -/
structure Cur where
  dst : Nat
  head : Bytes
  rest : List Bytes
  dl : Nat
deriving DecidableEq, Repr

structure St where
  now : Nat := 0
  todo : List Item := []
  cur : Option Cur := none
  sink : Nat → Sink := fun _ => {}
  /-- ping replies sent (libcs/server/conn.go:852-868) -/
  replies : Nat := 0
  /-- for the specification: writes that ran into their deadline, per receiver -/
  late : Nat → Nat := fun _ => 0
  /-- for the specification: everything that has arrived -/
  all : List Item := []
  /-- for the specification: items the reader is through with -/
  done : Nat := 0

def upd {α : Type} (f : Nat → α) (v : Nat) (x : α) : Nat → α := fun w => if w = v then x else f w

/-- The next `Write` of the frame: its deadline is set when it begins (libcs/conn/conn.go:44-50). -/
def begin (T now dst : Nat) : List Bytes → Option Cur
  | [] => none
  | c :: r => some ⟨dst, c, r, now + T⟩

def left : Option Cur → Nat
  | none => 1
  | some _ => 0

/-- One step of the reader, `none` if it is blocked (libcs/server/conn.go:831-978).

* a ping is answered (852-868);
* a frame for a receiver that is not there is thrown away (921-934);
* otherwise it is written piece by piece (935): the socket takes what it has room for; a write to a closed
  receiver fails, and so does one that is still waiting at its deadline; after a failure the rest of the frame is
  thrown away (936-947) and the loop goes on (948-960): the receiver is neither closed nor forgotten. -/
def reader (T : Nat) (s : St) : Option St :=
  match s.cur with
  | none =>
    match s.todo with
    | [] => none
    | .ping :: r => some { s with todo := r, replies := s.replies + 1, done := s.done + 1 }
    | .data d cs :: r =>
      if (s.sink d).isOpen then
        some { s with todo := r, cur := begin T s.now d cs, done := s.done + left (begin T s.now d cs) }
      else some { s with todo := r, done := s.done + 1 }
  | some c =>
    if (s.sink c.dst).isOpen = false then some { s with cur := none, done := s.done + 1 }
    else if c.head = [] then
      some { s with cur := begin T s.now c.dst c.rest, done := s.done + left (begin T s.now c.dst c.rest) }
    else if 0 < (s.sink c.dst).room then
      some { s with
        cur := some { c with head := c.head.drop (s.sink c.dst).room }
        sink := upd s.sink c.dst
          { s.sink c.dst with
            got := (s.sink c.dst).got ++ c.head.take (s.sink c.dst).room
            room := (s.sink c.dst).room - c.head.length } }
    else if 0 < T ∧ c.dl ≤ s.now then
      some { s with cur := none, late := upd s.late c.dst (s.late c.dst + 1), done := s.done + 1 }
    else none

/-- What can happen. -/
inductive Ev where
  /-- the reader does its next step -/
  | read
  /-- something arrives on the tunnel -/
  | arrive (i : Item)
  /-- the receiver reads: room for `n` more bytes -/
  | drain (v n : Nat)
  /-- the receiver is closed, by whichever side -/
  | close (v : Nat)
  /-- time passes while the reader is blocked, not beyond the deadline of a write -/
  | wait (d : Nat)
deriving DecidableEq, Repr

def canWait (T d : Nat) (s : St) : Bool :=
  (reader T s).isNone &&
    match s.cur with
    | none => true
    | some c => T == 0 || decide (s.now + d ≤ c.dl)

def step (T : Nat) (s : St) : Ev → Option St
  | .read => reader T s
  | .arrive i => some { s with todo := s.todo ++ [i], all := s.all ++ [i] }
  | .drain v n => some { s with sink := upd s.sink v { s.sink v with room := (s.sink v).room + n } }
  | .close v => some { s with sink := upd s.sink v { s.sink v with isOpen := false } }
  | .wait d => if canWait T d s then some { s with now := s.now + d } else none

/-- A run of the tunnel; `T` is the write timeout (0: none). -/
def run (T : Nat) (s : St) : List Ev → Option St
  | [] => some s
  | e :: r =>
    match step T s e with
    | none => none
    | some s' => run T s' r

/-! ## Specification -/

/-- The frames sent to a receiver, in order. -/
def framesTo (v : Nat) : List Item → List Bytes
  | [] => []
  | .data d cs :: r => if d = v then cs.flatten :: framesTo v r else framesTo v r
  | .ping :: r => framesTo v r

/-- The byte stream sent to a receiver. -/
def stream (v : Nat) (l : List Item) : Bytes := (framesTo v l).flatten

/-- `ps` are beginnings of the frames `fs`, one by one. -/
inductive Parts : List Bytes → List Bytes → Prop where
  | nil : Parts [] []
  | cons {p f : Bytes} {ps fs : List Bytes} : p <+: f → Parts ps fs → Parts (p :: ps) (f :: fs)

/-- Number of writes in the items. -/
def pieces : List Item → Nat
  | [] => 0
  | .data _ cs :: r => cs.length + pieces r
  | .ping :: r => pieces r

/-- The visitor whose full socket the reader is waiting for. -/
def waitsFor (s : St) (v : Nat) : Prop :=
  ∃ c, s.cur = some c ∧ c.dst = v ∧ c.head ≠ [] ∧ (s.sink v).isOpen = true ∧ (s.sink v).room = 0

/-! ## Lemmas -/

theorem upd_self {α : Type} (f : Nat → α) (v : Nat) (x : α) : upd f v x v = x := by simp [upd]
theorem upd_ne {α : Type} (f : Nat → α) {v w : Nat} (x : α) (h : w ≠ v) : upd f v x w = f w := by simp [upd, h]

theorem framesTo_append (v : Nat) (a b : List Item) : framesTo v (a ++ b) = framesTo v a ++ framesTo v b := by
  induction a with
  | nil => rfl
  | cons i r ih =>
    cases i with
    | ping => simpa [framesTo] using ih
    | data d cs =>
      by_cases h : d = v
      · simp [framesTo, h, ih]
      · simp [framesTo, h, ih]

theorem pieces_append (a b : List Item) : pieces (a ++ b) = pieces a + pieces b := by
  induction a with
  | nil => simp [pieces]
  | cons i r ih =>
    cases i with
    | ping => simpa [pieces] using ih
    | data d cs => simp [pieces, ih]; omega

theorem Parts.refl (l : List Bytes) : Parts l l := by
  induction l with
  | nil => exact .nil
  | cons a r ih => exact .cons (List.prefix_refl a) ih

theorem Parts.append {a b c d : List Bytes} (h : Parts a b) (h' : Parts c d) : Parts (a ++ c) (b ++ d) := by
  induction h with
  | nil => simpa using h'
  | cons p _ ih => exact .cons p ih

theorem Parts.sublist {a b : List Bytes} (h : Parts a b) : List.Sublist a.flatten b.flatten := by
  induction h with
  | nil => exact List.Sublist.slnil
  | cons p _ ih =>
    simp only [List.flatten_cons]
    exact List.Sublist.append p.sublist ih

theorem Parts.empties (l : List Bytes) : Parts (l.map (fun _ => [])) l := by
  induction l with
  | nil => exact .nil
  | cons a r ih => exact .cons (List.nil_prefix) ih

theorem run_cons (T : Nat) (s : St) (e : Ev) (r : List Ev) :
    run T s (e :: r) = match step T s e with | none => none | some s' => run T s' r := rfl

theorem run_append (T : Nat) (a b : List Ev) (s : St) :
    run T s (a ++ b) = match run T s a with | none => none | some s' => run T s' b := by
  induction a generalizing s with
  | nil => rfl
  | cons e r ih =>
    rw [List.cons_append, run_cons, run_cons]
    cases step T s e with
    | none => rfl
    | some s' => exact ih s'

/-- Induction over runs. -/
theorem run_inv (T : Nat) (P : St → Prop) (hstep : ∀ s e s', P s → step T s e = some s' → P s')
    (evs : List Ev) (s s' : St) (h : P s) (hr : run T s evs = some s') : P s' := by
  induction evs generalizing s with
  | nil => simp only [run, Option.some.injEq] at hr; exact hr ▸ h
  | cons e r ih =>
    rw [run_cons] at hr
    cases hs : step T s e with
    | none => rw [hs] at hr; simp at hr
    | some s1 => rw [hs] at hr; exact ih s1 (hstep s e s1 h hs) hr

/-- The part of the stream of `v` that is in the frame being written. -/
def inCur (v : Nat) (p : Bytes) : Option Cur → List Bytes
  | none => []
  | some c => if c.dst = v then [p ++ (c.head ++ c.rest.flatten)] else []

theorem inCur_begin (v T now d : Nat) (cs : List Bytes) :
    inCur v [] (begin T now d cs) = if cs = [] then [] else if d = v then [cs.flatten] else [] := by
  cases cs with
  | nil => simp [begin, inCur]
  | cons c r => simp [begin, inCur]

/-- Where the bytes of receiver `v` are. -/
def Inv (v : Nat) (s : St) : Prop :=
  ∃ (ps fin : List Bytes) (p : Bytes),
    (s.sink v).got = ps.flatten ++ p ∧ Parts ps fin ∧
    ((s.sink v).isOpen = true → s.late v = 0 → ps = fin) ∧
    framesTo v s.all = fin ++ (inCur v p s.cur ++ framesTo v s.todo) ∧
    (inCur v p s.cur = [] → p = [])

/-- The cases of a reader step. -/
inductive RStep (T : Nat) (s : St) : St → Prop where
  | ping (r) (hc : s.cur = none) (ht : s.todo = .ping :: r) :
      RStep T s { s with todo := r, replies := s.replies + 1, done := s.done + 1 }
  | start (d cs r) (hc : s.cur = none) (ht : s.todo = .data d cs :: r) (ho : (s.sink d).isOpen = true) :
      RStep T s { s with todo := r, cur := begin T s.now d cs, done := s.done + left (begin T s.now d cs) }
  | orphan (d cs r) (hc : s.cur = none) (ht : s.todo = .data d cs :: r) (ho : (s.sink d).isOpen = false) :
      RStep T s { s with todo := r, done := s.done + 1 }
  | fail (c) (hc : s.cur = some c) (ho : (s.sink c.dst).isOpen = false) :
      RStep T s { s with cur := none, done := s.done + 1 }
  | next (c) (hc : s.cur = some c) (ho : (s.sink c.dst).isOpen = true) (hh : c.head = []) :
      RStep T s { s with cur := begin T s.now c.dst c.rest, done := s.done + left (begin T s.now c.dst c.rest) }
  | push (c) (hc : s.cur = some c) (ho : (s.sink c.dst).isOpen = true) (hh : c.head ≠ [])
      (hr : 0 < (s.sink c.dst).room) :
      RStep T s { s with
        cur := some { c with head := c.head.drop (s.sink c.dst).room }
        sink := upd s.sink c.dst
          { s.sink c.dst with
            got := (s.sink c.dst).got ++ c.head.take (s.sink c.dst).room
            room := (s.sink c.dst).room - c.head.length } }
  | late (c) (hc : s.cur = some c) (ho : (s.sink c.dst).isOpen = true) (hh : c.head ≠ [])
      (hr : (s.sink c.dst).room = 0) (hT : 0 < T) (hd : c.dl ≤ s.now) :
      RStep T s { s with cur := none, late := upd s.late c.dst (s.late c.dst + 1), done := s.done + 1 }

theorem reader_cases {T : Nat} {s s' : St} (h : reader T s = some s') : RStep T s s' := by
  unfold reader at h
  split at h
  · rename_i hc
    split at h
    · exact absurd h (by simp)
    · rename_i r ht
      simp only [Option.some.injEq] at h; subst h; exact .ping r hc ht
    · rename_i d cs r ht
      split at h
      · rename_i ho
        simp only [Option.some.injEq] at h; subst h; exact .start d cs r hc ht ho
      · rename_i ho
        simp only [Option.some.injEq] at h; subst h
        exact .orphan d cs r hc ht (by simpa using ho)
  · rename_i c hc
    split at h
    · rename_i ho
      simp only [Option.some.injEq] at h; subst h; exact .fail c hc ho
    · rename_i ho
      have ho' : (s.sink c.dst).isOpen = true := by simpa using ho
      split at h
      · rename_i hh
        simp only [Option.some.injEq] at h; subst h; exact .next c hc ho' hh
      · rename_i hh
        split at h
        · rename_i hr
          simp only [Option.some.injEq] at h; subst h; exact .push c hc ho' hh hr
        · rename_i hr
          split at h
          · rename_i ht
            simp only [Option.some.injEq] at h; subst h
            exact .late c hc ho' hh (by omega) ht.1 ht.2
          · exact absurd h (by simp)

theorem inv_reader {T v : Nat} {s s' : St} (h : Inv v s) (hr : reader T s = some s') : Inv v s' := by
  obtain ⟨ps, fin, p, hg, hp, hok, hf, hp0⟩ := h
  cases reader_cases hr with
  | ping r hc ht =>
    refine ⟨ps, fin, p, hg, hp, hok, ?_, hp0⟩
    rw [hf, ht]; rfl
  | start d cs r hc ht ho =>
    have hpn : p = [] := hp0 (by rw [hc]; rfl)
    subst hpn
    rw [ht, hc] at hf
    by_cases hd : d = v
    · cases cs with
      | nil =>
        refine ⟨ps ++ [[]], fin ++ [[]], [], ?_, hp.append (Parts.refl _), ?_, ?_, fun _ => rfl⟩
        · simpa using hg
        · intro ho hl; rw [hok ho hl]
        · simp [begin, inCur, framesTo, hd] at hf ⊢; exact hf
      | cons c r' =>
        refine ⟨ps, fin, [], hg, hp, hok, ?_, fun _ => rfl⟩
        simp [begin, inCur, framesTo, hd] at hf ⊢; exact hf
    · refine ⟨ps, fin, [], hg, hp, hok, ?_, fun _ => rfl⟩
      rw [inCur_begin]
      simp [begin, inCur, framesTo, hd] at hf ⊢; exact hf
  | orphan d cs r hc ht ho =>
    have hpn : p = [] := hp0 (by rw [hc]; rfl)
    subst hpn
    rw [ht, hc] at hf
    by_cases hd : d = v
    · refine ⟨ps ++ [[]], fin ++ [cs.flatten], [], ?_, hp.append (Parts.empties [cs.flatten]), ?_, ?_, fun _ => rfl⟩
      · simpa using hg
      · intro ho' hl; subst hd; rw [ho] at ho'; exact absurd ho' (by simp)
      · rw [hc]; simp [inCur, framesTo, hd] at hf ⊢; exact hf
    · refine ⟨ps, fin, [], hg, hp, hok, ?_, fun _ => rfl⟩
      rw [hc]; simp [inCur, framesTo, hd] at hf ⊢; exact hf
  | fail c hc ho =>
    rw [hc] at hf hp0
    by_cases hd : c.dst = v
    · refine ⟨ps ++ [p], fin ++ [p ++ (c.head ++ c.rest.flatten)], [], ?_, hp.append (.cons (List.prefix_append _ _) .nil), ?_, ?_, fun _ => rfl⟩
      · simpa using hg
      · intro ho' hl; subst hd; rw [ho] at ho'; exact absurd ho' (by simp)
      · simp [inCur, hd] at hf ⊢; exact hf
    · have hpn : p = [] := hp0 (by simp [inCur, hd])
      subst hpn
      refine ⟨ps, fin, [], hg, hp, hok, ?_, fun _ => rfl⟩
      simp [inCur, hd] at hf ⊢; exact hf
  | next c hc ho hh =>
    rw [hc] at hf hp0
    by_cases hd : c.dst = v
    · cases hrest : c.rest with
      | nil =>
        refine ⟨ps ++ [p], fin ++ [p], [], ?_, hp.append (Parts.refl _), ?_, ?_, fun _ => rfl⟩
        · simpa using hg
        · intro ho hl; rw [hok ho hl]
        · simp [begin, inCur, hd, hrest, hh] at hf ⊢; exact hf
      | cons c' r' =>
        refine ⟨ps, fin, p, hg, hp, hok, ?_, ?_⟩
        · simp [begin, inCur, hd, hrest, hh] at hf ⊢; exact hf
        · simp [begin, inCur, hd]
    · have hpn : p = [] := hp0 (by simp [inCur, hd])
      subst hpn
      refine ⟨ps, fin, [], hg, hp, hok, ?_, fun _ => rfl⟩
      rw [inCur_begin]
      simp [inCur, hd] at hf ⊢; exact hf
  | push c hc ho hh hroom =>
    rw [hc] at hf hp0
    by_cases hd : c.dst = v
    · subst hd
      refine ⟨ps, fin, p ++ c.head.take (s.sink c.dst).room, ?_, hp, ?_, ?_, ?_⟩
      · simp only [upd_self]; rw [hg]; simp
      · simp only [upd_self]; exact hok
      · simp only [inCur, if_true] at hf ⊢
        rw [hf]
        have hta : c.head.take (s.sink c.dst).room ++ c.head.drop (s.sink c.dst).room = c.head := List.take_append_drop _ _
        have : p ++ c.head.take (s.sink c.dst).room ++ (c.head.drop (s.sink c.dst).room ++ c.rest.flatten)
            = p ++ (c.head ++ c.rest.flatten) := by
          rw [List.append_assoc, ← List.append_assoc (c.head.take _), hta]
        rw [this]
      · simp [inCur]
    · have hpn : p = [] := hp0 (by simp [inCur, hd])
      subst hpn
      have hv : v ≠ c.dst := fun e => hd e.symm
      refine ⟨ps, fin, [], ?_, hp, ?_, ?_, fun _ => rfl⟩
      · simp only [upd_ne _ _ hv]; exact hg
      · simp only [upd_ne _ _ hv]; exact hok
      · simp [inCur, hd] at hf ⊢; exact hf
  | late c hc ho hh hroom hT hd' =>
    rw [hc] at hf hp0
    by_cases hd : c.dst = v
    · refine ⟨ps ++ [p], fin ++ [p ++ (c.head ++ c.rest.flatten)], [], ?_, hp.append (.cons (List.prefix_append _ _) .nil), ?_, ?_, fun _ => rfl⟩
      · simpa using hg
      · intro ho' hl; subst hd; simp only [upd_self] at hl; exact absurd hl (by omega)
      · simp [inCur, hd] at hf ⊢; exact hf
    · have hpn : p = [] := hp0 (by simp [inCur, hd])
      subst hpn
      have hv : v ≠ c.dst := fun e => hd e.symm
      refine ⟨ps, fin, [], hg, hp, ?_, ?_, fun _ => rfl⟩
      · simp only [upd_ne _ _ hv]; exact hok
      · simp [inCur, hd] at hf ⊢; exact hf

theorem inv_step {T v : Nat} (s : St) (e : Ev) (s' : St) (h : Inv v s) (hs : step T s e = some s') : Inv v s' := by
  cases e with
  | read => exact inv_reader h hs
  | arrive i =>
    simp only [step, Option.some.injEq] at hs; subst hs
    obtain ⟨ps, fin, p, hg, hp, hok, hf, hp0⟩ := h
    refine ⟨ps, fin, p, hg, hp, hok, ?_, hp0⟩
    simp only [framesTo_append, hf, List.append_assoc]
  | drain w n =>
    simp only [step, Option.some.injEq] at hs; subst hs
    obtain ⟨ps, fin, p, hg, hp, hok, hf, hp0⟩ := h
    refine ⟨ps, fin, p, ?_, hp, ?_, hf, hp0⟩
    · by_cases hw : v = w
      · subst hw; simp only [upd_self]; exact hg
      · simp only [upd_ne _ _ hw]; exact hg
    · by_cases hw : v = w
      · subst hw; simp only [upd_self]; exact hok
      · simp only [upd_ne _ _ hw]; exact hok
  | close w =>
    simp only [step, Option.some.injEq] at hs; subst hs
    obtain ⟨ps, fin, p, hg, hp, hok, hf, hp0⟩ := h
    refine ⟨ps, fin, p, ?_, hp, ?_, hf, hp0⟩
    · by_cases hw : v = w
      · subst hw; simp only [upd_self]; exact hg
      · simp only [upd_ne _ _ hw]; exact hg
    · by_cases hw : v = w
      · subst hw; simp only [upd_self]; intro hc; exact absurd hc (by simp)
      · simp only [upd_ne _ _ hw]; exact hok
  | wait d =>
    simp only [step] at hs
    split at hs
    · simp only [Option.some.injEq] at hs; subst hs; exact h
    · exact absurd hs (by simp)

theorem inv_init (v : Nat) : Inv v {} :=
  ⟨[], [], [], rfl, .nil, fun _ _ => rfl, rfl, fun _ => rfl⟩

theorem inv_run {T : Nat} {evs : List Ev} {s : St} (v : Nat) (h : run T {} evs = some s) : Inv v s :=
  run_inv T (Inv v) (fun s e s' => inv_step s e s') evs {} s (inv_init v) h

/-! ## What every receiver gets -/

/-- C121 (own bytes, in order): at every moment what a receiver has got is made of one beginning of each of its own
frames, in the order they were sent (a beginning may be empty or the whole frame). In particular nothing is
doubled, reordered or taken from another receiver's frames, whatever the others do. -/
theorem got_beginnings_of_own_frames {T : Nat} {evs : List Ev} {s : St} (h : run T {} evs = some s) (v : Nat) :
    ∃ ps, Parts ps (framesTo v s.all) ∧ (s.sink v).got = ps.flatten := by
  obtain ⟨ps, fin, p, hg, hp, _, hf, hp0⟩ := inv_run v h
  rw [hf]
  cases hc : inCur v p s.cur with
  | nil =>
    have hpn := hp0 hc
    refine ⟨ps ++ (framesTo v s.todo).map (fun _ => []), hp.append (by simpa using Parts.empties _), ?_⟩
    rw [hg, hpn]
    have : ((framesTo v s.todo).map (fun _ => ([] : Bytes))).flatten = [] := by simp
    simp
  | cons a r =>
    cases hcc : s.cur with
    | none => rw [hcc] at hc; simp [inCur] at hc
    | some c =>
      rw [hcc] at hc
      by_cases hd : c.dst = v
      · simp [inCur, hd] at hc
        obtain ⟨ha, hr⟩ := hc
        subst hr
        refine ⟨ps ++ p :: (framesTo v s.todo).map (fun _ => []), hp.append (.cons ?_ (by simpa using Parts.empties _)), ?_⟩
        · rw [← ha]; exact List.prefix_append _ _
        · rw [hg]; simp
      · simp [inCur, hd] at hc

theorem got_sublist_of_stream {T : Nat} {evs : List Ev} {s : St} (h : run T {} evs = some s) (v : Nat) :
    List.Sublist (s.sink v).got (stream v s.all) := by
  obtain ⟨ps, hp, hg⟩ := got_beginnings_of_own_frames h v
  rw [hg]; exact hp.sublist

/-- C121 (no hole without a missed deadline): what an open receiver has got is a beginning of its stream as long as
none of the writes to it ran into the deadline. -/
theorem prefix_if_never_late {T : Nat} {evs : List Ev} {s : St} (h : run T {} evs = some s) (v : Nat)
    (ho : (s.sink v).isOpen = true) (hl : s.late v = 0) : (s.sink v).got <+: stream v s.all := by
  obtain ⟨ps, fin, p, hg, hp, hok, hf, hp0⟩ := inv_run v h
  have hps := hok ho hl
  subst hps
  unfold stream
  rw [hf, hg, List.flatten_append]
  refine (List.prefix_append_right_inj _).2 ?_
  cases hcc : s.cur with
  | none =>
    have := hp0 (by rw [hcc]; rfl)
    subst this; exact List.nil_prefix
  | some c =>
    by_cases hd : c.dst = v
    · simp only [inCur, hd, if_true, List.cons_append, List.nil_append, List.flatten_cons, List.append_assoc]
      exact List.prefix_append _ _
    · have := hp0 (by rw [hcc]; simp [inCur, hd])
      subst this; exact List.nil_prefix

/-- C121 (when the reader stops): the reader has nothing to do only if everything that arrived is dealt with,
or it waits for exactly one open receiver whose socket is full, before the deadline of that write (if there
is one). -/
theorem blocked_iff (T : Nat) (s : St) :
    reader T s = none ↔
      (s.cur = none ∧ s.todo = []) ∨
      (∃ c, s.cur = some c ∧ waitsFor s c.dst ∧ (T = 0 ∨ s.now < c.dl)) := by
  constructor
  · intro h
    unfold reader at h
    split at h
    · rename_i hc
      split at h
      · rename_i ht; exact .inl ⟨hc, ht⟩
      · exact absurd h (by simp)
      · split at h <;> exact absurd h (by simp)
    · rename_i c hc
      split at h
      · exact absurd h (by simp)
      · rename_i ho
        split at h
        · exact absurd h (by simp)
        · rename_i hh
          split at h
          · exact absurd h (by simp)
          · rename_i hr
            split at h
            · exact absurd h (by simp)
            · rename_i ht
              refine .inr ⟨c, hc, ⟨c, hc, rfl, hh, by simpa using ho, by omega⟩, ?_⟩
              by_cases hT : T = 0
              · exact .inl hT
              · exact .inr (by
                  have : ¬ (c.dl ≤ s.now) := fun hle => ht ⟨by omega, hle⟩
                  omega)
  · rintro (⟨hc, ht⟩ | ⟨c, hc, ⟨c', hc', hdst, hh, ho, hr⟩, hT⟩)
    · simp [reader, hc, ht]
    · have : c' = c := by rw [hc] at hc'; exact (Option.some.inj hc').symm
      subst this
      unfold reader
      rw [hc]
      simp only [ho, hh, hr]
      have : ¬ (0 < T ∧ c'.dl ≤ s.now) := by omega
      simp [this]

/-- C121 (everyone is served): when the reader has nothing to do and is not waiting for a receiver, every
open receiver none of whose writes was late has got all its bytes. -/
theorem all_delivered_when_quiet {T : Nat} {evs : List Ev} {s : St} (h : run T {} evs = some s)
    (hq : reader T s = none) (hw : ∀ v, ¬ waitsFor s v) (v : Nat)
    (ho : (s.sink v).isOpen = true) (hl : s.late v = 0) : (s.sink v).got = stream v s.all := by
  rcases (blocked_iff T s).1 hq with ⟨hc, ht⟩ | ⟨c, _, hwf, _⟩
  · obtain ⟨ps, fin, p, hg, hp, hok, hf, hp0⟩ := inv_run v h
    have := hp0 (by rw [hc]; rfl)
    subst this
    have hps := hok ho hl
    subst hps
    unfold stream
    rw [hf, hg, hc, ht]
    simp [inCur, framesTo]
  · exact absurd hwf (hw _)

/-- The reader never works for ever on what is there: a bound on its steps. -/
def effort : List Item → Nat
  | [] => 0
  | .data _ cs :: r => 1 + (cs.map (fun c => 2 + c.length)).sum + effort r
  | .ping :: r => 1 + effort r

def curEffort : Option Cur → Nat
  | none => 0
  | some c => 1 + c.head.length + (c.rest.map (fun c => 2 + c.length)).sum

theorem curEffort_begin (T now d : Nat) (cs : List Bytes) :
    curEffort (begin T now d cs) ≤ (cs.map (fun c => 2 + c.length)).sum := by
  cases cs with
  | nil => simp [begin, curEffort]
  | cons c r => simp only [begin, curEffort, List.map_cons, List.sum_cons]; omega

theorem curEffort_none : curEffort none = 0 := rfl
theorem curEffort_some (c : Cur) :
    curEffort (some c) = 1 + c.head.length + (c.rest.map (fun c => 2 + c.length)).sum := rfl

theorem effort_decreases {T : Nat} {s s' : St} (h : reader T s = some s') :
    curEffort s'.cur + effort s'.todo < curEffort s.cur + effort s.todo := by
  cases reader_cases h with
  | ping r hc ht => simp only [hc, ht, effort]; omega
  | start d cs r hc ht ho =>
    have := curEffort_begin T s.now d cs
    simp only [hc, ht, effort, curEffort_none, curEffort_some]; omega
  | orphan d cs r hc ht ho => simp only [hc, ht, effort, curEffort_none, curEffort_some]; omega
  | fail c hc ho => simp only [hc, curEffort_none, curEffort_some]; omega
  | next c hc ho hh =>
    have := curEffort_begin T s.now c.dst c.rest
    simp only [hc, curEffort_none, curEffort_some]; omega
  | push c hc ho hh hr =>
    have : 0 < c.head.length := by cases hx : c.head with
      | nil => exact absurd hx hh
      | cons _ _ => simp
    simp only [hc, curEffort_some, List.length_drop]; omega
  | late c hc ho hh hr hT hd => simp only [hc, curEffort_none, curEffort_some]; omega

/-- C121 (the reader comes to rest): left alone, the reader is blocked or done after finitely many steps. -/
theorem reader_comes_to_rest (T : Nat) (s : St) :
    ∃ n s', run T s (List.replicate n .read) = some s' ∧ reader T s' = none := by
  generalize hm : curEffort s.cur + effort s.todo = m
  induction m using Nat.strongRecOn generalizing s with
  | _ m ih =>
    cases hr : reader T s with
    | none => exact ⟨0, s, rfl, hr⟩
    | some s1 =>
      obtain ⟨n, s', h1, h2⟩ := ih _ (by have := effort_decreases hr; omega) s1 rfl
      refine ⟨n + 1, s', ?_, h2⟩
      rw [List.replicate_succ, run_cons]
      simp only [step, hr]
      exact h1

/-! ## How long the others wait -/

/-- Time the reader can still be held up by the frame being written. -/
def curTime (T now : Nat) : Option Cur → Nat
  | none => 0
  | some c => (c.dl - now) + T * c.rest.length

theorem curTime_begin (T now d : Nat) (cs : List Bytes) : curTime T now (begin T now d cs) = T * cs.length := by
  cases cs with
  | nil => simp [begin, curTime]
  | cons c r =>
    simp only [begin, curTime, List.length_cons, Nat.mul_add, Nat.mul_one]; omega

def open1 : Option Cur → Nat
  | none => 0
  | some _ => 1

theorem open1_left (c : Option Cur) : open1 c + left c = 1 := by cases c <;> rfl

theorem done_mono {T : Nat} (evs : List Ev) (s s' : St) (h : run T s evs = some s') : s.done ≤ s'.done := by
  refine run_inv T (fun x => s.done ≤ x.done) ?_ evs s s' (Nat.le_refl _) h
  intro a e b hab hs
  cases e with
  | read =>
    cases reader_cases hs <;> simp only <;> omega
  | arrive i => simp only [step, Option.some.injEq] at hs; subst hs; exact hab
  | drain w n => simp only [step, Option.some.injEq] at hs; subst hs; exact hab
  | close w => simp only [step, Option.some.injEq] at hs; subst hs; exact hab
  | wait d =>
    simp only [step] at hs
    split at hs
    · simp only [Option.some.injEq] at hs; subst hs; exact hab
    · exact absurd hs (by simp)

theorem bound_aux {T : Nat} (hT : 0 < T) (evs : List Ev) (s s' : St) (a b : List Item)
    (hab : s.todo = a ++ b) (h : run T s evs = some s')
    (hlate : s.now + (curTime T s.now s.cur + T * pieces a) < s'.now) :
    s.done + open1 s.cur + a.length ≤ s'.done := by
  induction evs generalizing s a b with
  | nil =>
    simp only [run, Option.some.injEq] at h
    subst h; omega
  | cons e r ih =>
    have h0 := h
    rw [run_cons] at h
    cases hs : step T s e with
    | none => rw [hs] at h; simp at h
    | some s1 =>
      rw [hs] at h
      simp only at h
      -- nothing left to do
      by_cases hz : s.cur = none ∧ a = []
      · have := done_mono _ s s' h0
        simp [hz.1, hz.2, open1]; exact this
      cases e with
      | read =>
        cases reader_cases hs with
        | ping r' hc ht =>
          cases a with
          | nil => exact absurd ⟨hc, rfl⟩ hz
          | cons i a' =>
            rw [ht, List.cons_append] at hab
            have hi := (List.cons.inj hab).1
            have := ih _ a' b (List.cons.inj hab).2 h (by
              simp only [hc, ← hi, pieces] at hlate ⊢; exact hlate)
            simp only [hc, open1, List.length_cons] at this ⊢; omega
        | start d cs r' hc ht ho =>
          cases a with
          | nil => exact absurd ⟨hc, rfl⟩ hz
          | cons i a' =>
            rw [ht, List.cons_append] at hab
            have hi := (List.cons.inj hab).1
            have hol := open1_left (begin T s.now d cs)
            have := ih _ a' b (List.cons.inj hab).2 h (by
              simp only [hc, ← hi, pieces, curTime_begin, Nat.mul_add] at hlate ⊢
              simp only [curTime] at hlate; omega)
            simp only [hc, open1, List.length_cons] at this ⊢
            simp only [open1] at hol; omega
        | orphan d cs r' hc ht ho =>
          cases a with
          | nil => exact absurd ⟨hc, rfl⟩ hz
          | cons i a' =>
            rw [ht, List.cons_append] at hab
            have hi := (List.cons.inj hab).1
            have := ih _ a' b (List.cons.inj hab).2 h (by
              simp only [hc, ← hi, pieces, Nat.mul_add] at hlate ⊢; omega)
            simp only [hc, open1, List.length_cons] at this ⊢; omega
        | fail c hc ho =>
          have := ih _ a b (by exact hab) h (by simp only [hc, curTime] at hlate ⊢; omega)
          simp only [hc, open1] at this ⊢; omega
        | next c hc ho hh =>
          have hol := open1_left (begin T s.now c.dst c.rest)
          have := ih _ a b (by exact hab) h (by
            simp only [curTime_begin]
            simp only [hc, curTime] at hlate
            omega)
          simp only [hc, open1] at this ⊢
          simp only [open1] at hol; omega
        | push c hc ho hh hr =>
          have := ih _ a b (by exact hab) h (by simp only [hc, curTime] at hlate ⊢; omega)
          simp only [hc, open1] at this ⊢; omega
        | late c hc ho hh hr hT' hd =>
          have := ih _ a b (by exact hab) h (by simp only [hc, curTime] at hlate ⊢; omega)
          simp only [hc, open1] at this ⊢; omega
      | arrive i =>
        simp only [step, Option.some.injEq] at hs; subst hs
        have := ih _ a (b ++ [i]) (by simp [hab]) h (by exact hlate)
        exact this
      | drain w n =>
        simp only [step, Option.some.injEq] at hs; subst hs
        have := ih _ a b (by exact hab) h (by exact hlate)
        exact this
      | close w =>
        simp only [step, Option.some.injEq] at hs; subst hs
        have := ih _ a b (by exact hab) h (by exact hlate)
        exact this
      | wait d =>
        simp only [step] at hs
        split at hs
        · rename_i hw
          simp only [Option.some.injEq] at hs; subst hs
          simp only [canWait, Bool.and_eq_true, Option.isNone_iff_eq_none] at hw
          cases hc : s.cur with
          | none =>
            -- blocked with no frame in hand: nothing waits
            rcases (blocked_iff T s).1 hw.1 with ⟨_, ht⟩ | ⟨c, hc', _⟩
            · rw [ht] at hab
              have : a = [] := (List.append_eq_nil_iff.1 hab.symm).1
              exact absurd ⟨hc, this⟩ hz
            · rw [hc] at hc'; exact absurd hc' (by simp)
          | some c =>
            have hdl : s.now + d ≤ c.dl := by
              have := hw.2
              rw [hc] at this
              have hT0 : (T == 0) = false := by simp; omega
              simpa [hT0] using this
            have := ih _ a b (by exact hab) h (by simp only [hc, curTime] at hlate ⊢; omega)
            simp only [hc] at this ⊢; exact this
        · exact absurd hs (by simp)

theorem dl_inv {T : Nat} {evs : List Ev} {s : St} (h : run T {} evs = some s) :
    ∀ c, s.cur = some c → c.dl ≤ s.now + T := by
  refine run_inv T (fun s => ∀ c, s.cur = some c → c.dl ≤ s.now + T) ?_ evs {} s (by simp) h
  intro a e b hab hs
  cases e with
  | read =>
    cases reader_cases hs with
    | ping r hc ht => intro c h; exact hab c h
    | start d cs r hc ht ho =>
      intro c h
      cases cs with
      | nil => simp [begin] at h
      | cons x y => simp only [begin, Option.some.injEq] at h; subst h; exact Nat.le_refl _
    | orphan d cs r hc ht ho => intro c h; exact hab c h
    | fail c hc ho => intro c h; simp at h
    | next c' hc ho hh =>
      intro c h
      cases hx : c'.rest with
      | nil => simp [begin, hx] at h
      | cons x y => simp only [begin, hx, Option.some.injEq] at h; subst h; exact Nat.le_refl _
    | push c' hc ho hh hr =>
      intro c h
      simp only [Option.some.injEq] at h; subst h; exact hab c' hc
    | late c' hc ho hh hr hT hd => intro c h; simp at h
  | arrive i => simp only [step, Option.some.injEq] at hs; subst hs; exact hab
  | drain w n => simp only [step, Option.some.injEq] at hs; subst hs; exact hab
  | close w => simp only [step, Option.some.injEq] at hs; subst hs; exact hab
  | wait d =>
    simp only [step] at hs
    split at hs
    · simp only [Option.some.injEq] at hs; subst hs
      intro c h; have := hab c h; simp only; omega
    · exact absurd hs (by simp)

/-- Writes not yet over: those of the frame in hand and those of the frames that wait. -/
def writesLeft (s : St) : Nat :=
  (match s.cur with
   | none => 0
   | some c => 1 + c.rest.length) + pieces s.todo

/-- C121 (bounded delay): with a write timeout `T`, everything that is on the tunnel now has been dealt with
(written, or given up for the receivers that did not read) once `T` has passed for every write ahead, however the
receivers behave.
Missing from the claim: independence of a receiver that does not read, which is false (`everybody_waits`, `delay_repeats`, `long_wait_ends_tunnel`). -/
theorem delay_bounded_partial {T : Nat} (hT : 0 < T) {evs0 : List Ev} {s : St} (h0 : run T {} evs0 = some s)
    {evs : List Ev} {s' : St} (h : run T s evs = some s') (hlate : s.now + T * writesLeft s < s'.now) :
    s.done + open1 s.cur + s.todo.length ≤ s'.done := by
  refine bound_aux hT evs s s' s.todo [] (by simp) h ?_
  have hd := dl_inv h0
  cases hc : s.cur with
  | none => simpa [writesLeft, hc, curTime] using hlate
  | some c =>
    have := hd c hc
    simp only [writesLeft, hc, Nat.mul_add, Nat.mul_one] at hlate
    simp only [curTime]
    omega

/-- Nobody moves the receiver: it neither reads nor is closed. -/
def leaves (v : Nat) : Ev → Bool
  | .drain w _ => w != v
  | .close w => w != v
  | _ => true

def arrivals : List Ev → List Item
  | [] => []
  | .arrive i :: r => i :: arrivals r
  | _ :: r => arrivals r

/-- C121 (everybody waits): while the reader waits for a receiver that neither reads nor is closed and the deadline
of the write has not come (for ever, if there is none), no receiver gets anything, no ping is
answered, and everything that arrives queues up: however much time passes and however eagerly the
others read. -/
theorem everybody_waits {T : Nat} (evs : List Ev) (s s' : St) (c : Cur) (hc : s.cur = some c) (hw : waitsFor s c.dst)
    (h : run T s evs = some s') (hl : ∀ e ∈ evs, leaves c.dst e = true) (ht : T = 0 ∨ s'.now < c.dl) :
    (∀ v, (s'.sink v).got = (s.sink v).got) ∧ s'.replies = s.replies ∧ s'.done = s.done ∧
      s'.todo = s.todo ++ arrivals evs ∧ s'.cur = some c ∧ waitsFor s' c.dst := by
  induction evs generalizing s with
  | nil =>
    simp only [run, Option.some.injEq] at h; subst h
    exact ⟨fun _ => rfl, rfl, rfl, by simp [arrivals], hc, hw⟩
  | cons e r ih =>
    have hlr : ∀ e ∈ r, leaves c.dst e = true := fun e he => hl e (List.mem_cons_of_mem _ he)
    have hle := hl e List.mem_cons_self
    rw [run_cons] at h
    cases hs : step T s e with
    | none => rw [hs] at h; simp at h
    | some s1 =>
      rw [hs] at h; simp only at h
      obtain ⟨c', hc', hdst, hh, ho, hr⟩ := hw
      have : c' = c := by rw [hc] at hc'; exact (Option.some.inj hc').symm
      subst this
      cases e with
      | read =>
        exfalso
        have hmono : s.now ≤ s'.now := by
          have h1 : ∀ evs (x y : St), run T x evs = some y → x.now ≤ y.now := by
            intro evs x y hxy
            refine run_inv T (fun z => x.now ≤ z.now) ?_ evs x y (Nat.le_refl _) hxy
            intro a e b hab hs
            cases e with
            | read => cases reader_cases hs <;> exact hab
            | arrive i => simp only [step, Option.some.injEq] at hs; subst hs; exact hab
            | drain w n => simp only [step, Option.some.injEq] at hs; subst hs; exact hab
            | close w => simp only [step, Option.some.injEq] at hs; subst hs; exact hab
            | wait d =>
              simp only [step] at hs
              split at hs
              · simp only [Option.some.injEq] at hs; subst hs; simp only; omega
              · exact absurd hs (by simp)
          exact h1 (.read :: r) s s' (by rw [run_cons]; simp only [hs]; exact h)
        have hb : reader T s = none :=
          (blocked_iff T s).2 (.inr ⟨c', hc, ⟨c', hc, rfl, hh, ho, hr⟩, by omega⟩)
        simp only [step] at hs
        rw [hb] at hs; exact absurd hs (by simp)
      | arrive i =>
        simp only [step, Option.some.injEq] at hs; subst hs
        obtain ⟨a1, a2, a3, a4, a5, a6⟩ := ih _ (by exact hc) (by exact ⟨c', hc, rfl, hh, ho, hr⟩) h hlr
        refine ⟨a1, a2, a3, ?_, a5, a6⟩
        rw [a4]; simp [arrivals]
      | drain w n =>
        simp only [step, Option.some.injEq] at hs; subst hs
        have hne : c'.dst ≠ w := by
          intro e; simp [leaves, e] at hle
        obtain ⟨a1, a2, a3, a4, a5, a6⟩ := ih _ (by exact hc) (by
          exact ⟨c', hc, rfl, hh, by simpa only [upd_ne _ _ hne] using ho,
            by simpa only [upd_ne _ _ hne] using hr⟩) h hlr
        refine ⟨?_, a2, a3, a4, a5, a6⟩
        intro v
        rw [a1 v]
        by_cases hv : v = w
        · subst hv; simp only [upd_self]
        · simp only [upd_ne _ _ hv]
      | close w =>
        simp only [step, Option.some.injEq] at hs; subst hs
        have hne : c'.dst ≠ w := by
          intro e; simp [leaves, e] at hle
        obtain ⟨a1, a2, a3, a4, a5, a6⟩ := ih _ (by exact hc) (by
          exact ⟨c', hc, rfl, hh, by simpa only [upd_ne _ _ hne] using ho,
            by simpa only [upd_ne _ _ hne] using hr⟩) h hlr
        refine ⟨?_, a2, a3, a4, a5, a6⟩
        intro v
        rw [a1 v]
        by_cases hv : v = w
        · subst hv; simp only [upd_self]
        · simp only [upd_ne _ _ hv]
      | wait d =>
        simp only [step] at hs
        split at hs
        · simp only [Option.some.injEq] at hs; subst hs
          have := ih _ (by exact hc) (by exact ⟨c', hc, rfl, hh, ho, hr⟩) h hlr
          exact this
        · exact absurd hs (by simp)

/-- C121 (finding, everybody is cut off): the server's reader answers no ping while it waits for a visitor, and the
client gives the tunnel up after four read timeouts without an answer (C39). So if the wait lasts that
long, the client ends the tunnel, and with it the connections of all its visitors. `h` is what the client's read
loop has seen before the wait, `t` during it; it cannot have seen more replies than the server sent. -/
theorem long_wait_ends_tunnel {T : Nat} {evs : List Ev} {s s' : St} {c : Cur} (hc : s.cur = some c)
    (hw : waitsFor s c.dst) (hr : run T s evs = some s') (hl : ∀ e ∈ evs, leaves c.dst e = true)
    (ht : T = 0 ∨ s'.now < c.dl) (h t : List Client.Ping.Ev)
    (hh : s.replies = h.countP Client.Ping.isPing) (hht : (h ++ t).countP Client.Ping.isPing ≤ s'.replies)
    (hon : 0 ≤ Client.Ping.outstanding h) (h4 : 4 ≤ t.countP Client.Ping.isTimeout) :
    ∃ e n, Client.Ping.run .init 0 (h ++ t) = .ended e n := by
  obtain ⟨_, hrep, _⟩ := everybody_waits evs s s' c hc hw hr hl ht
  refine Client.Ping.silent_server_detected h t hon ?_ h4
  rw [List.countP_append] at hht
  have h0 : t.countP Client.Ping.isPing = 0 := by omega
  intro e he
  have := (List.countP_eq_zero.1 h0) e he
  simpa using this

/-! ## Findings -/

def frame1 : Item := .data 1 [[7]]
def frame2 : Item := .data 2 [[9]]

/-- C121 (finding): without a write timeout (server option `timeout` 0, and always towards the local services of a
client) a receiver that is open and does not read holds up all others for ever: after any time `d`, visitor 2
still has nothing although its byte is there and it is ready to take it. -/
theorem no_timeout_blocks_forever (d : Nat) :
    ∃ s, run 0 {} [.drain 2 100, .arrive frame1, .arrive frame2, .read, .wait d] = some s ∧
      s.now = d ∧ (s.sink 1).isOpen = true ∧ (s.sink 2).room = 100 ∧ (s.sink 2).got = [] ∧
      stream 2 s.all = [9] ∧ reader 0 s = none := by
  refine ⟨_, rfl, ?_, rfl, rfl, rfl, rfl, ?_⟩
  · exact Nat.zero_add d
  · rfl

def cycle (T : Nat) : List Ev := [.read, .wait T, .read]

def cycles (T : Nat) : Nat → List Ev
  | 0 => []
  | n + 1 => cycle T ++ cycles T n

theorem cycle_run (T : Nat) (hT : 0 < T) (s : St) (q : List Item) (hc : s.cur = none) (ht : s.todo = frame1 :: q)
    (ho : (s.sink 1).isOpen = true) (hr : (s.sink 1).room = 0) :
    run T s (cycle T) = some { s with now := s.now + T, todo := q, late := upd s.late 1 (s.late 1 + 1), done := s.done + 1 } := by
  have h1 : reader T s = some { s with todo := q, cur := some ⟨1, [7], [], s.now + T⟩ } := by
    simp [reader, hc, ht, frame1, ho, begin, left]
  have h2 : reader T { s with todo := q, cur := some ⟨1, [7], [], s.now + T⟩ } = none := by
    refine (blocked_iff _ _).2 (.inr ⟨_, rfl, ⟨_, rfl, rfl, by simp, ho, hr⟩, .inr ?_⟩)
    simp only; omega
  have h3 : reader T { s with now := s.now + T, todo := q, cur := some ⟨1, [7], [], s.now + T⟩ } =
      some { s with now := s.now + T, todo := q, cur := none, late := upd s.late 1 (s.late 1 + 1), done := s.done + 1 } := by
    simp [reader, ho, hr, hT]
  unfold cycle
  rw [run_cons]
  simp only [step, h1]
  rw [run_cons]
  simp only [step, canWait, h2, Option.isNone_none, Bool.true_and, Nat.le_refl, decide_true, Bool.or_true, if_true]
  rw [run_cons]
  simp only [step, h3, run]
  cases s
  simp only at hc
  subst hc
  rfl

theorem cycles_run (T : Nat) (hT : 0 < T) (n : Nat) (s : St) (q : List Item) (hc : s.cur = none)
    (ht : s.todo = List.replicate n frame1 ++ q)
    (ho : (s.sink 1).isOpen = true) (hr : (s.sink 1).room = 0) :
    ∃ s', run T s (cycles T n) = some s' ∧ s'.now = s.now + n * T ∧ s'.todo = q ∧ s'.cur = none ∧
      s'.sink = s.sink ∧ s'.all = s.all := by
  induction n generalizing s with
  | zero => exact ⟨s, rfl, by simp, by simpa using ht, hc, rfl, rfl⟩
  | succ n ih =>
    have h1 := cycle_run T hT s (List.replicate n frame1 ++ q) hc (by rw [ht, List.replicate_succ]; rfl) ho hr
    obtain ⟨s', h2, h3, h4, h5, h6, h7⟩ := ih
      { s with now := s.now + T, todo := List.replicate n frame1 ++ q, late := upd s.late 1 (s.late 1 + 1), done := s.done + 1 }
      hc rfl ho hr
    refine ⟨s', ?_, ?_, h4, h5, h6, h7⟩
    · rw [cycles, run_append, h1]; exact h2
    · rw [h3]; simp only [Nat.add_mul, Nat.one_mul]; omega

theorem arrive_run (T : Nat) (l : List Item) (s : St) :
    run T s (l.map .arrive) = some { s with todo := s.todo ++ l, all := s.all ++ l } := by
  induction l generalizing s with
  | nil => simp [run]
  | cons i r ih =>
    rw [List.map_cons, run_cons]
    simp only [step]
    rw [ih]; simp

/-- C121 (finding): with a write timeout `T` a receiver that does not read is not closed when a write to it
runs into the deadline, so it holds up the others once per frame: for every `n` there is a run in which
visitor 2, ready all the time, gets the single byte that waits for it only after `n * T`. The bound of
`delay_bounded_partial` is reached. -/
theorem delay_repeats (T : Nat) (hT : 0 < T) (n : Nat) :
    ∃ evs s, run T {} evs = some s ∧ s.now = n * T ∧ s.all = List.replicate n frame1 ++ [frame2] ∧
      (s.sink 1).isOpen = true ∧ (s.sink 2).room = 100 ∧ (s.sink 2).got = [] ∧
      ∃ s', run T s [.read, .read] = some s' ∧ (s'.sink 2).got = [9] := by
  have ha := arrive_run T (List.replicate n frame1 ++ [frame2]) { sink := upd (fun _ => {}) 2 { room := 100 } }
  obtain ⟨s', h2, h3, h4, h5, h6, h7⟩ := cycles_run T hT n
    { sink := upd (fun _ => {}) 2 { room := 100 }, todo := List.replicate n frame1 ++ [frame2],
      all := List.replicate n frame1 ++ [frame2] } [frame2] rfl rfl rfl rfl
  refine ⟨.drain 2 100 :: ((List.replicate n frame1 ++ [frame2]).map .arrive ++ cycles T n), s', ?_, ?_, h7, ?_, ?_, ?_, ?_⟩
  · rw [run_cons]
    simp only [step]
    rw [run_append]
    have e : ({ sink := upd (fun _ => {}) 2 { room := (({} : Sink)).room + 100 } } : St)
        = { sink := upd (fun _ => {}) 2 { room := 100 } } := rfl
    have ha' := ha
    simp only [List.nil_append] at ha'
    show (match run T { sink := upd (fun _ => {}) 2 { room := 100 } } _ with | none => none | some s' => run T s' _) = _
    rw [ha']
    exact h2
  · rw [h3]; simp
  · rw [h6]; rfl
  · rw [h6]; rfl
  · rw [h6]; rfl
  · have hr1 : reader T s' = some { s' with todo := [], cur := some ⟨2, [9], [], s'.now + T⟩ } := by
      have ho : (s'.sink 2).isOpen = true := by rw [h6]; rfl
      simp [reader, h5, h4, frame2, ho, begin, left]
    rw [run_cons]
    simp only [step, hr1]
    rw [run_cons]
    have ho : (s'.sink 2).isOpen = true := by rw [h6]; rfl
    have hr : (s'.sink 2).room = 100 := by rw [h6]; rfl
    have hg : (s'.sink 2).got = [] := by rw [h6]; rfl
    have hr2 : ∃ s'', reader T { s' with todo := [], cur := some ⟨2, [9], [], s'.now + T⟩ } = some s'' ∧ (s''.sink 2).got = [9] := by
      simp [reader, ho, hr, hg, upd]
    obtain ⟨s'', e1, e2⟩ := hr2
    refine ⟨s'', ?_, e2⟩
    simp only [step, e1, run]

/-- C121 (finding, a hole): a write that ran into its deadline loses the rest of the frame, and the receiver stays
open and known. If it reads again it is sent the following frames: the visitor sees bytes 1, 2, 5, 6 of
the stream 1, 2, 3, 4, 5, 6 on one and the same connection, and nothing tells it. -/
theorem hole_in_stream :
    ∃ s, run 90000 {} [.drain 1 2, .arrive (.data 1 [[1, 2, 3, 4]]), .arrive (.data 1 [[5, 6]]), .read, .read,
        .wait 90000, .read, .drain 1 10, .read, .read, .read] = some s ∧
      (s.sink 1).isOpen = true ∧ (s.sink 1).got = [1, 2, 5, 6] ∧ stream 1 s.all = [1, 2, 3, 4, 5, 6] ∧
      reader 90000 s = none := ⟨_, rfl, rfl, rfl, rfl, rfl⟩

/-! ## Witnesses -/

/-- Visitors 1 and 2 read: both get everything although their frames are mixed. -/
theorem two_visitors_example :
    ∃ s, run 90000 {} [.arrive (.data 1 [[1, 2], [3]]), .arrive .ping, .arrive (.data 2 [[4]]), .drain 1 2, .drain 2 5,
        .read, .read, .read, .wait 1000, .drain 1 1, .read, .read, .read, .read, .read, .read] = some s ∧
      (s.sink 1).got = [1, 2, 3] ∧ (s.sink 2).got = [4] ∧ s.replies = 1 ∧ s.now = 1000 ∧ s.done = 3 ∧
      reader 90000 s = none ∧ s.late 1 = 0 ∧ s.cur = none := ⟨_, rfl, rfl, rfl, rfl, rfl, rfl, rfl, rfl, rfl⟩

/-- A state in which the reader waits, reached from the start, with something else waiting; the premises of
`everybody_waits`, `delay_bounded_partial` and `long_wait_ends_tunnel` hold there. -/
theorem waiting_example :
    ∃ s, run 90000 {} [.arrive frame1, .arrive frame2, .read] = some s ∧ waitsFor s 1 ∧
      s.cur = some ⟨1, [7], [], 90000⟩ ∧ writesLeft s = 2 ∧
      ∃ s', run 90000 s [.wait 89999, .drain 2 5, .arrive .ping] = some s' ∧ s'.now < 90000 :=
  ⟨_, rfl, ⟨_, rfl, rfl, List.cons_ne_nil _ _, rfl, rfl⟩, rfl, rfl, _, rfl, by decide⟩

/-- `delay_bounded_partial` at work: after twice the timeout (and a little) both frames are dealt with. -/
theorem delay_example :
    ∃ s s', run 10 {} [.arrive frame1, .arrive frame2, .read] = some s ∧
      run 10 s [.wait 10, .read, .read, .wait 10, .read, .wait 1] = some s' ∧
      s.now + 10 * writesLeft s < s'.now ∧ s'.done = 2 := ⟨_, _, rfl, rfl, by decide, rfl⟩

end Verif.Tunnel.Stall
