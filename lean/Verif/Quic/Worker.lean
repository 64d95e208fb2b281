import Verif.Common
set_option linter.unusedSimpArgs false
set_option linter.unusedVariables false
/-!
# C135: clients of the BBR transport and each other
(libcs/conn/msquic/listener.go:60-80 `Accept`, 101-119 `OnNewConnection`; libcs/conn/msquic/conneciton.go:154-162
`PeerStreamStarted`, 176-207 `OnConnectionShutdownComplete`, `OnPeerStreamStarted`; libcs/conn/msquic/listener.cpp:105-125,
connection.cpp:110-133: the callbacks)

MsQuic runs the callbacks of a connection on the worker thread the connection belongs to, one callback at a time, in order; this is
the only assumption on the library. The callbacks of gt put what they get into Go channels with room for one element and
wait if there is none. A callback that waits is, in the model, the head of the queue of its worker until it can go on.
-/
namespace Verif.Quic.Worker

/-- What MsQuic reports. `data` stands for all that is reported about an open stream (C94). -/
inductive Evt where
  | new (c : Nat)
  | stream (c : Nat)
  | data (c x : Nat)
  | down (c : Nat)
deriving DecidableEq, Repr

def Evt.conn : Evt → Nat
  | .new c => c
  | .stream c => c
  | .data c _ => c
  | .down c => c

/-- Where the loop around `Accept` is. -/
inductive Acc where
  | idle
  /-- has taken a connection and waits for its stream (libcs/conn/msquic/listener.go:67) -/
  | waits (c : Nat)
  /-- has returned: an error that is no timeout ends the loop (C93) -/
  | ended
deriving DecidableEq, Repr

structure St where
  /-- what each worker still has to do; its head is the callback that is running or waits -/
  q : Nat → List Evt := fun _ => []
  /-- `Listener.onNewConnection`, room for one -/
  pend : Option Nat := none
  acc : Acc := .idle
  /-- `Connection.onPeerStreamStarted`, room for one -/
  buf : Nat → Bool := fun _ => false
  /-- `Connection.onClose` -/
  closed : Nat → Bool := fun _ => false
  /-- `Accept` has returned the first stream: the server handles the tunnel -/
  tunnel : Nat → Bool := fun _ => false
  /-- what was reported to the tunnel -/
  got : Nat → List Nat := fun _ => []

def upd {α} (f : Nat → α) (t : Nat) (x : α) : Nat → α := fun y => if y = t then x else f y

/-- A callback: the state after it, or nothing if it has to wait. libcs/conn/msquic/listener.go:101-119, conneciton.go:176-207. (If a
connection is closed and there is room as well, Go chooses at random; here the stream of a closed connection is dropped.) -/
def callback (s : St) : Evt → Option St
  | .new c => if s.pend = none then some { s with pend := some c } else none
  | .stream c => if s.closed c then some s else if s.buf c then none else some { s with buf := upd s.buf c true }
  | .data c x => some { s with got := upd s.got c (s.got c ++ [x]) }
  | .down c => some { s with closed := upd s.closed c true }

inductive Act where
  /-- the network brings something -/
  | net (e : Evt)
  /-- a worker runs the callback at the head of its queue, or finds that it has to go on waiting -/
  | work (w : Nat)
  /-- the accepting goroutine goes on, if it can -/
  | accept
  /-- the server closes a tunnel (msquicConn.go:15-22) -/
  | close (c : Nat)
deriving DecidableEq, Repr

/-- libcs/conn/msquic/listener.go:60-80 -/
def accept (s : St) : St :=
  match s.acc with
  | .idle => match s.pend with
    | none => s
    | some c => { s with acc := .waits c, pend := none }
  | .waits c =>
    if s.buf c then { s with buf := upd s.buf c false, tunnel := upd s.tunnel c true, acc := .idle }
    else if s.closed c then { s with acc := .ended }
    else s
  | .ended => s

/-- `wk c` is the worker of connection `c`. -/
def step (wk : Nat → Nat) (s : St) : Act → St
  | .net e => { s with q := upd s.q (wk e.conn) (s.q (wk e.conn) ++ [e]) }
  | .work w => match s.q w with
    | [] => s
    | e :: r => match callback s e with
      | some s' => { s' with q := upd s'.q w r }
      | none => s
  | .accept => accept s
  | .close c => if s.tunnel c then { s with closed := upd s.closed c true } else s

def run (wk : Nat → Nat) (s : St) : List Act → St
  | [] => s
  | a :: as => run wk (step wk s a) as

/-! ## Specification -/

/-- What the network has brought: connections, streams, and what belongs to `c`. -/
def announced : List Act → List Nat
  | [] => []
  | .net (.new c) :: as => c :: announced as
  | _ :: as => announced as

def opened : List Act → List Nat
  | [] => []
  | .net (.stream c) :: as => c :: opened as
  | _ :: as => opened as

def sent (c : Nat) : List Act → List Nat
  | [] => []
  | .net (.data d x) :: as => if d = c then x :: sent c as else sent c as
  | _ :: as => sent c as

/-- The connections that have come and have no tunnel yet. -/
def setup (wk : Nat → Nat) (as : List Act) : List Nat := (announced as).filter fun c => !(run wk {} as).tunnel c

/-- Clients as gt's are: a connection comes once, opens one stream, and ends only after it was accepted; and at any time at most
`n` connections are being set up. -/
inductive Gentle (wk : Nat → Nat) (n : Nat) : List Act → Prop
  | nil : Gentle wk n []
  | new {as c} (h : Gentle wk n as) (hc : c ∉ announced as) (hn : (setup wk as).length < n) : Gentle wk n (as ++ [.net (.new c)])
  | stream {as c} (h : Gentle wk n as) (hc : c ∈ announced as) (ho : c ∉ opened as) : Gentle wk n (as ++ [.net (.stream c)])
  | data {as c x} (h : Gentle wk n as) (hc : c ∈ opened as) : Gentle wk n (as ++ [.net (.data c x)])
  | down {as c} (h : Gentle wk n as) (hc : (run wk {} as).tunnel c = true) : Gentle wk n (as ++ [.net (.down c)])
  | work {as w} (h : Gentle wk n as) : Gentle wk n (as ++ [.work w])
  | accept {as} (h : Gentle wk n as) : Gentle wk n (as ++ [.accept])
  | close {as c} (h : Gentle wk n as) : Gentle wk n (as ++ [.close c])

/-- Steps of gt and its workers alone. -/
def Act.own : Act → Prop
  | .work _ => True
  | .accept => True
  | _ => False

/-! ## Proofs -/

theorem run_append (wk : Nat → Nat) (s : St) (a b : List Act) : run wk s (a ++ b) = run wk (run wk s a) b := by
  induction a generalizing s with
  | nil => rfl
  | cons x a ih => exact ih _

theorem announced_append (a b : List Act) : announced (a ++ b) = announced a ++ announced b := by
  induction a with
  | nil => rfl
  | cons x a ih =>
    rw [List.cons_append]
    cases x with
    | net e => cases e <;> simp [announced, ih]
    | work w => exact ih
    | accept => exact ih
    | close c => exact ih

theorem opened_append (a b : List Act) : opened (a ++ b) = opened a ++ opened b := by
  induction a with
  | nil => rfl
  | cons x a ih =>
    rw [List.cons_append]
    cases x with
    | net e => cases e <;> simp [opened, ih]
    | work w => exact ih
    | accept => exact ih
    | close c => exact ih

theorem sent_append (c : Nat) (a b : List Act) : sent c (a ++ b) = sent c a ++ sent c b := by
  induction a with
  | nil => rfl
  | cons x a ih =>
    rw [List.cons_append]
    cases x with
    | net e => cases e <;> simp [sent, ih]; split <;> simp
    | work w => exact ih
    | accept => exact ih
    | close c => exact ih

/-- What a queue holds of the data of a connection. -/
def dataOf (c : Nat) : List Evt → List Nat
  | [] => []
  | .data d x :: l => if d = c then x :: dataOf c l else dataOf c l
  | _ :: l => dataOf c l

theorem dataOf_append (c : Nat) (a b : List Evt) : dataOf c (a ++ b) = dataOf c a ++ dataOf c b := by
  induction a with
  | nil => rfl
  | cons x a ih =>
    rw [List.cons_append]
    cases x with
    | data d x => simp only [dataOf, ih]; split <;> simp
    | new d => exact ih
    | stream d => exact ih
    | down d => exact ih

theorem upd_self {α} (f : Nat → α) (t : Nat) (x : α) : upd f t x t = x := by simp [upd]
theorem upd_ne {α} (f : Nat → α) {t y : Nat} (x : α) (h : y ≠ t) : upd f t x y = f y := by simp [upd, h]

/-- The ghost part: what has come, what is open, what is being set up. -/
structure Inv (wk : Nat → Nat) (ann op : List Nat) (snt : Nat → List Nat) (s : St) : Prop where
  place : ∀ w, ∀ e ∈ s.q w, wk e.conn = w
  one : ∀ w c, (s.q w).count (.new c) ≤ 1
  oneS : ∀ w c, (s.q w).count (.stream c) ≤ 1
  newA : ∀ w c, Evt.new c ∈ s.q w → c ∈ ann ∧ s.tunnel c = false ∧ s.pend ≠ some c ∧ s.acc ≠ .waits c
  pendA : ∀ c, s.pend = some c → c ∈ ann ∧ s.tunnel c = false ∧ s.acc ≠ .waits c
  accA : ∀ c, s.acc = .waits c → c ∈ ann ∧ s.tunnel c = false
  str : ∀ w c, Evt.stream c ∈ s.q w → c ∈ op ∧ s.buf c = false ∧ s.tunnel c = false
  bufA : ∀ c, s.buf c = true → c ∈ op ∧ s.tunnel c = false
  downA : ∀ w c, Evt.down c ∈ s.q w → s.tunnel c = true
  clo : ∀ c, s.closed c = true → s.tunnel c = true
  tun : ∀ c, s.tunnel c = true → c ∈ ann ∧ c ∈ op
  fine : s.acc ≠ .ended
  annN : ann.Nodup
  dat : ∀ c, s.got c ++ dataOf c (s.q (wk c)) = snt c
  all : ∀ c ∈ ann, s.tunnel c = true ∨ Evt.new c ∈ s.q (wk c) ∨ s.pend = some c ∨ s.acc = .waits c
  allS : ∀ c ∈ op, s.tunnel c = true ∨ Evt.stream c ∈ s.q (wk c) ∨ s.buf c = true

theorem inv_init (wk : Nat → Nat) : Inv wk [] [] (fun _ => []) {} := by
  constructor <;> simp [dataOf]

theorem inv_accept {wk : Nat → Nat} {ann op snt s} (h : Inv wk ann op snt s) : Inv wk ann op snt (accept s) := by
  unfold accept
  split
  · rename_i ha
    split
    · exact h
    · rename_i c hp
      obtain ⟨p1, p2, p3⟩ := h.pendA c hp
      refine { h with newA := ?_, pendA := ?_, accA := ?_, fine := by simp, all := ?_ }
      · intro w d hd
        obtain ⟨x1, x2, x3, x4⟩ := h.newA w d hd
        refine ⟨x1, x2, by simp, ?_⟩
        simp only [ne_eq, Acc.waits.injEq]
        intro hcd; subst hcd; exact x3 hp
      · intro d hd; cases hd
      · intro d hd
        have : c = d := by simpa using hd
        subst this; exact ⟨p1, p2⟩
      · intro d hd
        rcases h.all d hd with x | x | x | x
        · exact .inl x
        · exact .inr (.inl x)
        · rw [hp] at x; cases x; exact .inr (.inr (.inr rfl))
        · rw [ha] at x; cases x
  · rename_i c ha
    obtain ⟨p1, p2⟩ := h.accA c ha
    split
    · rename_i hb
      have tun : ∀ d, s.tunnel d = true → upd s.tunnel c true d = true := by
        intro d hd; unfold upd; split
        · rfl
        · exact hd
      have tunf : ∀ d, d ≠ c → s.tunnel d = false → upd s.tunnel c true d = false := by
        intro d hd hf; rw [upd_ne _ _ hd]; exact hf
      refine { h with newA := ?_, pendA := ?_, accA := ?_, str := ?_, bufA := ?_, downA := ?_, clo := ?_, tun := ?_, fine := by simp, all := ?_, allS := ?_ }
      · intro w d hd
        obtain ⟨x1, x2, x3, x4⟩ := h.newA w d hd
        exact ⟨x1, tunf d (by rintro rfl; exact x4 ha) x2, x3, by simp⟩
      · intro d hd
        obtain ⟨x1, x2, x3⟩ := h.pendA d hd
        exact ⟨x1, tunf d (by rintro rfl; exact x3 ha) x2, by simp⟩
      · intro d hd; cases hd
      · intro w d hd
        obtain ⟨x1, x2, x3⟩ := h.str w d hd
        have hne : d ≠ c := by rintro rfl; rw [hb] at x2; cases x2
        exact ⟨x1, by dsimp only; rw [upd_ne _ _ hne]; exact x2, tunf d hne x3⟩
      · intro d hd
        dsimp only at hd
        have hne : d ≠ c := by rintro rfl; rw [upd_self] at hd; cases hd
        rw [upd_ne _ _ hne] at hd
        obtain ⟨x1, x2⟩ := h.bufA d hd
        exact ⟨x1, tunf d hne x2⟩
      · intro w d hd; exact tun d (h.downA w d hd)
      · intro d hd; exact tun d (h.clo d hd)
      · intro d hd
        dsimp only at hd
        by_cases hdc : d = c
        · subst hdc; exact ⟨p1, (h.bufA d hb).1⟩
        · rw [upd_ne _ _ hdc] at hd; exact h.tun d hd
      · intro d hd
        dsimp only
        by_cases hdc : d = c
        · subst hdc; exact .inl (upd_self _ _ _)
        · rcases h.all d hd with x | x | x | x
          · exact .inl (tun d x)
          · exact .inr (.inl x)
          · exact .inr (.inr (.inl x))
          · rw [ha] at x; cases x; exact absurd rfl hdc
      · intro d hd
        dsimp only
        by_cases hdc : d = c
        · subst hdc; exact .inl (upd_self _ _ _)
        · rcases h.allS d hd with x | x | x
          · exact .inl (tun d x)
          · exact .inr (.inl x)
          · exact .inr (.inr (by rw [upd_ne _ _ hdc]; exact x))
    · split
      · rename_i hc
        rw [h.clo c hc] at p2; cases p2
      · exact h
  · exact h

theorem inv_close {wk : Nat → Nat} {ann op snt s} (h : Inv wk ann op snt s) (c : Nat) :
    Inv wk ann op snt (step wk s (.close c)) := by
  simp only [step]
  split
  · rename_i hc
    refine { h with clo := ?_ }
    intro d hd
    dsimp only at hd
    by_cases hdc : d = c
    · subst hdc; exact hc
    · rw [upd_ne _ _ hdc] at hd; exact h.clo d hd
  · exact h

/-- Taking the head off a queue. -/
theorem inv_work {wk : Nat → Nat} {ann op snt s} (h : Inv wk ann op snt s) (w : Nat) : Inv wk ann op snt (step wk s (.work w)) := by
  simp only [step]
  split
  · exact h
  · rename_i e r hq
    have sub : ∀ w' e', e' ∈ upd s.q w r w' → e' ∈ s.q w' := by
      intro w' e' he
      by_cases hw : w' = w
      · subst hw; rw [upd_self] at he; rw [hq]; exact List.mem_cons_of_mem _ he
      · rw [upd_ne _ _ hw] at he; exact he
    have cnt : ∀ w' e', (upd s.q w r w').count e' ≤ (s.q w').count e' := by
      intro w' e'
      by_cases hw : w' = w
      · subst hw; rw [upd_self, hq, List.count_cons]; omega
      · rw [upd_ne _ _ hw]; exact Nat.le_refl _
    have hplace : wk e.conn = w := h.place w e (by rw [hq]; simp)
    cases e with
    | new c =>
      by_cases hp : s.pend = none
      · · have hcb : callback s (.new c) = some { s with pend := some c } := by simp [callback, hp]
          rw [hcb]
          dsimp only
          have hw : wk c = w := hplace
          obtain ⟨x1, x2, x3, x4⟩ := h.newA w c (by rw [hq]; simp)
          have hnot : ∀ w', Evt.new c ∉ upd s.q w r w' := by
            intro w' hm
            have hw' : wk c = w' := h.place w' _ (sub _ _ hm)
            rw [← hw', hw, upd_self] at hm
            have := h.one w c
            rw [hq, List.count_cons_self] at this
            have := List.count_pos_iff.mpr hm
            omega
          refine { h with place := ?_, one := ?_, oneS := ?_, newA := ?_, pendA := ?_, str := ?_, downA := ?_, dat := ?_, all := ?_, allS := ?_ }
          · intro w' e' he; exact h.place w' e' (sub w' e' he)
          · intro w' d; exact Nat.le_trans (cnt w' _) (h.one w' d)
          · intro w' d; exact Nat.le_trans (cnt w' _) (h.oneS w' d)
          · intro w' d hd
            obtain ⟨y1, y2, y3, y4⟩ := h.newA w' d (sub _ _ hd)
            refine ⟨y1, y2, ?_, y4⟩
            dsimp only
            intro hcd; cases hcd; exact hnot w' hd
          · intro d hd
            cases hd; exact ⟨x1, x2, x4⟩
          · intro w' d hd; exact h.str w' d (sub _ _ hd)
          · intro w' d hd; exact h.downA w' d (sub _ _ hd)
          · intro d
            dsimp only
            rw [← h.dat d]
            by_cases hd : wk d = w
            · rw [hd, upd_self, hq]; rfl
            · rw [upd_ne _ _ hd]
          · intro d hd
            dsimp only
            rcases h.all d hd with y | y | y | y
            · exact .inl y
            · by_cases hdw : wk d = w
              · rw [hdw, hq] at y
                rcases List.mem_cons.mp y with y | y
                · cases y; exact .inr (.inr (.inl rfl))
                · rw [hdw, upd_self]; exact .inr (.inl y)
              · rw [upd_ne _ _ hdw]; exact .inr (.inl y)
            · rw [hp] at y; cases y
            · exact .inr (.inr (.inr y))
          · intro d hd
            dsimp only
            rcases h.allS d hd with y | y | y
            · exact .inl y
            · by_cases hdw : wk d = w
              · rw [hdw, hq] at y
                rcases List.mem_cons.mp y with y | y
                · cases y
                · rw [hdw, upd_self]; exact .inr (.inl y)
              · rw [upd_ne _ _ hdw]; exact .inr (.inl y)
            · exact .inr (.inr y)
      · have hcb : callback s (.new c) = none := by simp [callback, hp]
        rw [hcb]
        exact h
    | stream c =>
      obtain ⟨x1, x2, x3⟩ := h.str w c (by rw [hq]; simp)
      have hcl : s.closed c = false := by
        cases hc : s.closed c with
        | false => rfl
        | true => rw [h.clo c hc] at x3; cases x3
      have hcb : callback s (.stream c) = some { s with buf := upd s.buf c true } := by simp [callback, hcl, x2]
      rw [hcb]
      dsimp only
      have hw : wk c = w := hplace
      have hnot : ∀ w', Evt.stream c ∉ upd s.q w r w' := by
        intro w' hm
        have hw' : wk c = w' := h.place w' _ (sub _ _ hm)
        rw [← hw', hw, upd_self] at hm
        have := h.oneS w c
        rw [hq, List.count_cons_self] at this
        have := List.count_pos_iff.mpr hm
        omega
      refine { h with place := ?_, one := ?_, oneS := ?_, newA := ?_, str := ?_, bufA := ?_, downA := ?_, dat := ?_, all := ?_, allS := ?_ }
      · intro w' e' he; exact h.place w' e' (sub w' e' he)
      · intro w' d; exact Nat.le_trans (cnt w' _) (h.one w' d)
      · intro w' d; exact Nat.le_trans (cnt w' _) (h.oneS w' d)
      · intro w' d hd; exact h.newA w' d (sub _ _ hd)
      · intro w' d hd
        obtain ⟨y1, y2, y3⟩ := h.str w' d (sub _ _ hd)
        refine ⟨y1, ?_, y3⟩
        dsimp only
        rw [upd_ne _ _ (by rintro rfl; exact hnot w' hd)]; exact y2
      · intro d hd
        dsimp only at hd
        by_cases hdc : d = c
        · subst hdc; exact ⟨x1, x3⟩
        · rw [upd_ne _ _ hdc] at hd; exact h.bufA d hd
      · intro w' d hd; exact h.downA w' d (sub _ _ hd)
      · intro d
        dsimp only
        rw [← h.dat d]
        by_cases hd : wk d = w
        · rw [hd, upd_self, hq]; rfl
        · rw [upd_ne _ _ hd]
      · intro d hd
        dsimp only
        rcases h.all d hd with y | y | y | y
        · exact .inl y
        · by_cases hdw : wk d = w
          · rw [hdw, hq] at y
            rcases List.mem_cons.mp y with y | y
            · cases y
            · rw [hdw, upd_self]; exact .inr (.inl y)
          · rw [upd_ne _ _ hdw]; exact .inr (.inl y)
        · exact .inr (.inr (.inl y))
        · exact .inr (.inr (.inr y))
      · intro d hd
        dsimp only
        by_cases hdc : d = c
        · subst hdc; exact .inr (.inr (upd_self _ _ _))
        · rcases h.allS d hd with y | y | y
          · exact .inl y
          · by_cases hdw : wk d = w
            · rw [hdw, hq] at y
              rcases List.mem_cons.mp y with y | y
              · cases y; exact absurd rfl hdc
              · rw [hdw, upd_self]; exact .inr (.inl y)
            · rw [upd_ne _ _ hdw]; exact .inr (.inl y)
          · exact .inr (.inr (by rw [upd_ne _ _ hdc]; exact y))
    | data c x =>
      simp only [callback]
      have hw : wk c = w := hplace
      refine { h with place := ?_, one := ?_, oneS := ?_, newA := ?_, str := ?_, downA := ?_, dat := ?_, all := ?_, allS := ?_ }
      · intro w' e' he; exact h.place w' e' (sub w' e' he)
      · intro w' d; exact Nat.le_trans (cnt w' _) (h.one w' d)
      · intro w' d; exact Nat.le_trans (cnt w' _) (h.oneS w' d)
      · intro w' d hd; exact h.newA w' d (sub _ _ hd)
      · intro w' d hd; exact h.str w' d (sub _ _ hd)
      · intro w' d hd; exact h.downA w' d (sub _ _ hd)
      · intro d
        dsimp only
        rw [← h.dat d]
        by_cases hdc : d = c
        · subst hdc
          rw [upd_self, hw, upd_self, hq]
          simp [dataOf]
        · rw [upd_ne _ _ hdc]
          by_cases hd : wk d = w
          · rw [hd, upd_self, hq]
            have : dataOf d (.data c x :: r) = dataOf d r := by
              simp only [dataOf]; rw [if_neg (fun h => hdc h.symm)]
            rw [this]
          · rw [upd_ne _ _ hd]
      · intro d hd
        dsimp only
        rcases h.all d hd with y | y | y | y
        · exact .inl y
        · by_cases hdw : wk d = w
          · rw [hdw, hq] at y
            rcases List.mem_cons.mp y with y | y
            · cases y
            · rw [hdw, upd_self]; exact .inr (.inl y)
          · rw [upd_ne _ _ hdw]; exact .inr (.inl y)
        · exact .inr (.inr (.inl y))
        · exact .inr (.inr (.inr y))
      · intro d hd
        dsimp only
        rcases h.allS d hd with y | y | y
        · exact .inl y
        · by_cases hdw : wk d = w
          · rw [hdw, hq] at y
            rcases List.mem_cons.mp y with y | y
            · cases y
            · rw [hdw, upd_self]; exact .inr (.inl y)
          · rw [upd_ne _ _ hdw]; exact .inr (.inl y)
        · exact .inr (.inr y)
    | down c =>
      simp only [callback]
      have hdn := h.downA w c (by rw [hq]; simp)
      refine { h with place := ?_, one := ?_, oneS := ?_, newA := ?_, str := ?_, downA := ?_, clo := ?_, dat := ?_, all := ?_, allS := ?_ }
      · intro w' e' he; exact h.place w' e' (sub w' e' he)
      · intro w' d; exact Nat.le_trans (cnt w' _) (h.one w' d)
      · intro w' d; exact Nat.le_trans (cnt w' _) (h.oneS w' d)
      · intro w' d hd; exact h.newA w' d (sub _ _ hd)
      · intro w' d hd; exact h.str w' d (sub _ _ hd)
      · intro w' d hd; exact h.downA w' d (sub _ _ hd)
      · intro d hd
        dsimp only at hd
        by_cases hdc : d = c
        · subst hdc; exact hdn
        · rw [upd_ne _ _ hdc] at hd; exact h.clo d hd
      · intro d
        dsimp only
        rw [← h.dat d]
        by_cases hd : wk d = w
        · rw [hd, upd_self, hq]; rfl
        · rw [upd_ne _ _ hd]
      · intro d hd
        dsimp only
        rcases h.all d hd with y | y | y | y
        · exact .inl y
        · by_cases hdw : wk d = w
          · rw [hdw, hq] at y
            rcases List.mem_cons.mp y with y | y
            · cases y
            · rw [hdw, upd_self]; exact .inr (.inl y)
          · rw [upd_ne _ _ hdw]; exact .inr (.inl y)
        · exact .inr (.inr (.inl y))
        · exact .inr (.inr (.inr y))
      · intro d hd
        dsimp only
        rcases h.allS d hd with y | y | y
        · exact .inl y
        · by_cases hdw : wk d = w
          · rw [hdw, hq] at y
            rcases List.mem_cons.mp y with y | y
            · cases y
            · rw [hdw, upd_self]; exact .inr (.inl y)
          · rw [upd_ne _ _ hdw]; exact .inr (.inl y)
        · exact .inr (.inr y)

theorem count_snoc (l : List Evt) (e x : Evt) : (l ++ [e]).count x = l.count x + (if e = x then 1 else 0) := by
  rw [List.count_append, List.count_singleton]
  by_cases h : e = x <;> simp [h]

theorem inv_new {wk : Nat → Nat} {ann op snt s} (h : Inv wk ann op snt s) (c : Nat) (hc : c ∉ ann) :
    Inv wk (ann ++ [c]) op snt (step wk s (.net (.new c))) := by
  have mem : ∀ w e, e ∈ upd s.q (wk c) (s.q (wk c) ++ [.new c]) w → e ∈ s.q w ∨ (e = .new c ∧ w = wk c) := by
    intro w e he
    by_cases hw : w = wk c
    · subst hw; rw [upd_self] at he
      rcases List.mem_append.mp he with he | he
      · exact .inl he
      · exact .inr ⟨List.mem_singleton.mp he, rfl⟩
    · rw [upd_ne _ _ hw] at he; exact .inl he
  have keep : ∀ w e, e ∈ s.q w → e ∈ upd s.q (wk c) (s.q (wk c) ++ [.new c]) w := by
    intro w e he
    by_cases hw : w = wk c
    · subst hw; rw [upd_self]; exact List.mem_append_left _ he
    · rw [upd_ne _ _ hw]; exact he
  have htc : s.tunnel c = false := by
    cases ht : s.tunnel c with
    | false => rfl
    | true => exact absurd (h.tun c ht).1 hc
  simp only [step, Evt.conn]
  refine { h with place := ?_, one := ?_, oneS := ?_, newA := ?_, pendA := ?_, accA := ?_, str := ?_, downA := ?_, tun := ?_, annN := ?_, dat := ?_, all := ?_, allS := ?_ }
  · intro w e he
    rcases mem w e he with he | ⟨rfl, rfl⟩
    · exact h.place w e he
    · rfl
  · intro w d
    dsimp only
    by_cases hw : w = wk c
    · subst hw; rw [upd_self, count_snoc]
      split
      · rename_i hcd; cases hcd
        have : (s.q (wk c)).count (.new c) = 0 := List.count_eq_zero.mpr (fun hm => hc (h.newA _ _ hm).1)
        omega
      · exact h.one _ d
    · rw [upd_ne _ _ hw]; exact h.one w d
  · intro w d
    dsimp only
    by_cases hw : w = wk c
    · subst hw; rw [upd_self, count_snoc, if_neg (by simp)]; exact h.oneS _ d
    · rw [upd_ne _ _ hw]; exact h.oneS w d
  · intro w d hd
    rcases mem w _ hd with hd | ⟨hd', _⟩
    · obtain ⟨x1, x2, x3, x4⟩ := h.newA w d hd
      exact ⟨List.mem_append_left _ x1, x2, x3, x4⟩
    · cases hd'
      exact ⟨by simp, htc, fun hp => hc (h.pendA c hp).1, fun ha => hc (h.accA c ha).1⟩
  · intro d hd
    obtain ⟨x1, x2, x3⟩ := h.pendA d hd
    exact ⟨List.mem_append_left _ x1, x2, x3⟩
  · intro d hd
    obtain ⟨x1, x2⟩ := h.accA d hd
    exact ⟨List.mem_append_left _ x1, x2⟩
  · intro w d hd
    rcases mem w _ hd with hd | ⟨hd, _⟩
    · exact h.str w d hd
    · cases hd
  · intro w d hd
    rcases mem w _ hd with hd | ⟨hd, _⟩
    · exact h.downA w d hd
    · cases hd
  · intro d hd
    obtain ⟨x1, x2⟩ := h.tun d hd
    exact ⟨List.mem_append_left _ x1, x2⟩
  · refine List.nodup_append.mpr ⟨h.annN, by simp, ?_⟩
    intro x hx y hy
    rw [List.mem_singleton] at hy; subst hy
    rintro rfl; exact hc hx
  · intro d
    dsimp only
    rw [← h.dat d]
    by_cases hw : wk d = wk c
    · rw [hw, upd_self, dataOf_append]; simp [dataOf]
    · rw [upd_ne _ _ hw]
  · intro d hd
    dsimp only
    rcases List.mem_append.mp hd with hd | hd
    · rcases h.all d hd with y | y | y | y
      · exact .inl y
      · exact .inr (.inl (keep _ _ y))
      · exact .inr (.inr (.inl y))
      · exact .inr (.inr (.inr y))
    · rw [List.mem_singleton] at hd; subst hd
      exact .inr (.inl (by rw [upd_self]; simp))
  · intro d hd
    dsimp only
    rcases h.allS d hd with y | y | y
    · exact .inl y
    · exact .inr (.inl (keep _ _ y))
    · exact .inr (.inr y)

theorem inv_stream {wk : Nat → Nat} {ann op snt s} (h : Inv wk ann op snt s) (c : Nat) (hc : c ∉ op) :
    Inv wk ann (op ++ [c]) snt (step wk s (.net (.stream c))) := by
  have mem : ∀ w e, e ∈ upd s.q (wk c) (s.q (wk c) ++ [.stream c]) w → e ∈ s.q w ∨ (e = .stream c ∧ w = wk c) := by
    intro w e he
    by_cases hw : w = wk c
    · subst hw; rw [upd_self] at he
      rcases List.mem_append.mp he with he | he
      · exact .inl he
      · exact .inr ⟨List.mem_singleton.mp he, rfl⟩
    · rw [upd_ne _ _ hw] at he; exact .inl he
  have keep : ∀ w e, e ∈ s.q w → e ∈ upd s.q (wk c) (s.q (wk c) ++ [.stream c]) w := by
    intro w e he
    by_cases hw : w = wk c
    · subst hw; rw [upd_self]; exact List.mem_append_left _ he
    · rw [upd_ne _ _ hw]; exact he
  have htc : s.tunnel c = false := by
    cases ht : s.tunnel c with
    | false => rfl
    | true => exact absurd (h.tun c ht).2 hc
  have hbc : s.buf c = false := by
    cases ht : s.buf c with
    | false => rfl
    | true => exact absurd (h.bufA c ht).1 hc
  simp only [step, Evt.conn]
  refine { h with place := ?_, one := ?_, oneS := ?_, newA := ?_, str := ?_, bufA := ?_, downA := ?_, tun := ?_, dat := ?_, all := ?_, allS := ?_ }
  · intro w e he
    rcases mem w e he with he | ⟨rfl, rfl⟩
    · exact h.place w e he
    · rfl
  · intro w d
    dsimp only
    by_cases hw : w = wk c
    · subst hw; rw [upd_self, count_snoc, if_neg (by simp)]; exact h.one _ d
    · rw [upd_ne _ _ hw]; exact h.one w d
  · intro w d
    dsimp only
    by_cases hw : w = wk c
    · subst hw; rw [upd_self, count_snoc]
      split
      · rename_i hcd; cases hcd
        have : (s.q (wk c)).count (.stream c) = 0 := List.count_eq_zero.mpr (fun hm => hc (h.str _ _ hm).1)
        omega
      · exact h.oneS _ d
    · rw [upd_ne _ _ hw]; exact h.oneS w d
  · intro w d hd
    rcases mem w _ hd with hd | ⟨hd, _⟩
    · exact h.newA w d hd
    · cases hd
  · intro w d hd
    rcases mem w _ hd with hd | ⟨hd, _⟩
    · obtain ⟨x1, x2, x3⟩ := h.str w d hd
      exact ⟨List.mem_append_left _ x1, x2, x3⟩
    · cases hd; exact ⟨by simp, hbc, htc⟩
  · intro d hd
    obtain ⟨x1, x2⟩ := h.bufA d hd
    exact ⟨List.mem_append_left _ x1, x2⟩
  · intro w d hd
    rcases mem w _ hd with hd | ⟨hd, _⟩
    · exact h.downA w d hd
    · cases hd
  · intro d hd
    obtain ⟨x1, x2⟩ := h.tun d hd
    exact ⟨x1, List.mem_append_left _ x2⟩
  · intro d
    dsimp only
    rw [← h.dat d]
    by_cases hw : wk d = wk c
    · rw [hw, upd_self, dataOf_append]; simp [dataOf]
    · rw [upd_ne _ _ hw]
  · intro d hd
    dsimp only
    rcases h.all d hd with y | y | y | y
    · exact .inl y
    · exact .inr (.inl (keep _ _ y))
    · exact .inr (.inr (.inl y))
    · exact .inr (.inr (.inr y))
  · intro d hd
    dsimp only
    rcases List.mem_append.mp hd with hd | hd
    · rcases h.allS d hd with y | y | y
      · exact .inl y
      · exact .inr (.inl (keep _ _ y))
      · exact .inr (.inr y)
    · rw [List.mem_singleton] at hd; subst hd
      exact .inr (.inl (by rw [upd_self]; simp))

/-- Other events only lengthen a queue. -/
theorem inv_other {wk : Nat → Nat} {ann op s} {snt snt' : Nat → List Nat} (h : Inv wk ann op snt s) (e : Evt)
    (he : (∃ c x, e = .data c x ∧ snt' = upd snt c (snt c ++ [x])) ∨ (∃ c, e = .down c ∧ s.tunnel c = true ∧ snt' = snt)) :
    Inv wk ann op snt' (step wk s (.net e)) := by
  have n1 : ∀ c, e ≠ .new c := by
    rcases he with ⟨c, x, rfl, _⟩ | ⟨c, rfl, _⟩ <;> intro d <;> simp
  have n2 : ∀ c, e ≠ .stream c := by
    rcases he with ⟨c, x, rfl, _⟩ | ⟨c, rfl, _⟩ <;> intro d <;> simp
  have mem : ∀ w e', e' ∈ upd s.q (wk e.conn) (s.q (wk e.conn) ++ [e]) w → e' ∈ s.q w ∨ (e' = e ∧ w = wk e.conn) := by
    intro w e' he
    by_cases hw : w = wk e.conn
    · subst hw; rw [upd_self] at he
      rcases List.mem_append.mp he with he | he
      · exact .inl he
      · exact .inr ⟨List.mem_singleton.mp he, rfl⟩
    · rw [upd_ne _ _ hw] at he; exact .inl he
  have keep : ∀ w e', e' ∈ s.q w → e' ∈ upd s.q (wk e.conn) (s.q (wk e.conn) ++ [e]) w := by
    intro w e' he
    by_cases hw : w = wk e.conn
    · subst hw; rw [upd_self]; exact List.mem_append_left _ he
    · rw [upd_ne _ _ hw]; exact he
  simp only [step]
  refine { h with place := ?_, one := ?_, oneS := ?_, newA := ?_, str := ?_, downA := ?_, dat := ?_, all := ?_, allS := ?_ }
  · intro w e' he
    rcases mem w e' he with he | ⟨rfl, rfl⟩
    · exact h.place w e' he
    · rfl
  · intro w d
    dsimp only
    by_cases hw : w = wk e.conn
    · subst hw; rw [upd_self, count_snoc, if_neg (n1 d)]; exact h.one _ d
    · rw [upd_ne _ _ hw]; exact h.one w d
  · intro w d
    dsimp only
    by_cases hw : w = wk e.conn
    · subst hw; rw [upd_self, count_snoc, if_neg (n2 d)]; exact h.oneS _ d
    · rw [upd_ne _ _ hw]; exact h.oneS w d
  · intro w d hd
    rcases mem w _ hd with hd | ⟨hd, _⟩
    · exact h.newA w d hd
    · exact absurd hd.symm (n1 d)
  · intro w d hd
    rcases mem w _ hd with hd | ⟨hd, _⟩
    · exact h.str w d hd
    · exact absurd hd.symm (n2 d)
  · intro w d hd
    rcases mem w _ hd with hd | ⟨hd, _⟩
    · exact h.downA w d hd
    · rcases he with ⟨c, x, rfl, _⟩ | ⟨c, rfl, ht, _⟩
      · cases hd
      · cases hd; exact ht
  · intro d
    dsimp only
    rcases he with ⟨c, x, rfl, rfl⟩ | ⟨c, rfl, ht, rfl⟩
    · simp only [Evt.conn]
      by_cases hdc : d = c
      · subst hdc
        rw [upd_self, upd_self, dataOf_append, ← List.append_assoc, h.dat d]; simp [dataOf]
      · rw [upd_ne snt _ hdc, ← h.dat d]
        by_cases hw : wk d = wk c
        · rw [hw, upd_self, dataOf_append]
          have : dataOf d [.data c x] = [] := by simp only [dataOf]; rw [if_neg (fun h => hdc h.symm)]
          rw [this, List.append_nil]
        · rw [upd_ne _ _ hw]
    · simp only [Evt.conn]
      rw [← h.dat d]
      by_cases hw : wk d = wk c
      · rw [hw, upd_self, dataOf_append]; simp [dataOf]
      · rw [upd_ne _ _ hw]
  · intro d hd
    dsimp only
    rcases h.all d hd with y | y | y | y
    · exact .inl y
    · exact .inr (.inl (keep _ _ y))
    · exact .inr (.inr (.inl y))
    · exact .inr (.inr (.inr y))
  · intro d hd
    dsimp only
    rcases h.allS d hd with y | y | y
    · exact .inl y
    · exact .inr (.inl (keep _ _ y))
    · exact .inr (.inr y)

theorem gentle_inv {wk : Nat → Nat} {n : Nat} {as : List Act} (h : Gentle wk n as) :
    Inv wk (announced as) (opened as) (fun c => sent c as) (run wk {} as) := by
  induction h with
  | nil => exact inv_init wk
  | @new as c h hc hn ih =>
    have := inv_new ih c hc
    rw [run_append, announced_append, opened_append]
    simpa [announced, opened, sent_append, sent, run] using this
  | @stream as c h hc ho ih =>
    have := inv_stream ih c ho
    rw [run_append, announced_append, opened_append]
    simpa [announced, opened, sent_append, sent, run] using this
  | @data as c x h hc ih =>
    have := inv_other (snt' := fun d => sent d (as ++ [.net (.data c x)])) ih (.data c x) (.inl ⟨c, x, rfl, by
      funext d
      by_cases hd : d = c
      · subst hd; rw [upd_self, sent_append]; simp [sent]
      · rw [upd_ne _ _ hd, sent_append]; simp only [sent]; rw [if_neg (fun h => hd h.symm)]; simp⟩)
    rw [run_append, announced_append, opened_append]
    simpa [announced, opened, run] using this
  | @down as c h hc ih =>
    have := inv_other (snt' := fun d => sent d as) ih (.down c) (.inr ⟨c, rfl, hc, rfl⟩)
    rw [run_append, announced_append, opened_append]
    simpa [announced, opened, sent_append, sent, run] using this
  | @work as w h ih =>
    have := inv_work ih w
    rw [run_append, announced_append, opened_append]
    simpa [announced, opened, sent_append, sent, run] using this
  | @accept as h ih =>
    have := inv_accept ih
    rw [run_append, announced_append, opened_append]
    simpa [announced, opened, sent_append, sent, run, step] using this
  | @close as c h ih =>
    have := inv_close ih c
    rw [run_append, announced_append, opened_append]
    simpa [announced, opened, sent_append, sent, run] using this

theorem own_inv {wk : Nat → Nat} {ann op snt} (bs : List Act) : ∀ {s}, Inv wk ann op snt s → (∀ b ∈ bs, b.own) →
    Inv wk ann op snt (run wk s bs) := by
  induction bs with
  | nil => intro s h _; exact h
  | cons b bs ih =>
    intro s h hb
    have hb0 := hb b (by simp)
    refine ih ?_ (fun x hx => hb x (List.mem_cons_of_mem _ hx))
    cases b with
    | net e => exact hb0.elim
    | work w => exact inv_work h w
    | accept => exact inv_accept h
    | close c => exact hb0.elim

theorem tunnel_mono_step (wk : Nat → Nat) (s : St) (a : Act) (c : Nat) (h : s.tunnel c = true) : (step wk s a).tunnel c = true := by
  cases a with
  | net e => exact h
  | work w =>
    simp only [step]
    split
    · exact h
    · rename_i e r hq
      split
      · rename_i s' hs
        cases e with
        | new d => simp only [callback] at hs; split at hs <;> cases hs; exact h
        | stream d =>
          simp only [callback] at hs
          split at hs
          · cases hs; exact h
          · split at hs <;> cases hs; exact h
        | data d x => cases hs; exact h
        | down d => cases hs; exact h
      · exact h
  | accept =>
    simp only [step, accept]
    split
    · split <;> exact h
    · split
      · dsimp only; unfold upd; split
        · rfl
        · exact h
      · split <;> exact h
    · exact h
  | close d => simp only [step]; split <;> exact h

theorem tunnel_mono (wk : Nat → Nat) (as : List Act) (c : Nat) : ∀ s : St, s.tunnel c = true → (run wk s as).tunnel c = true := by
  induction as with
  | nil => intro s h; exact h
  | cons a as ih => intro s h; exact ih _ (tunnel_mono_step wk s a c h)

/-- The connections without a tunnel. -/
def wait (ann : List Nat) (s : St) : List Nat := ann.filter fun c => !s.tunnel c

theorem filter_le {α} (p q : α → Bool) (l : List α) (h : ∀ x ∈ l, p x = true → q x = true) :
    (l.filter p).length ≤ (l.filter q).length := by
  induction l with
  | nil => simp
  | cons x l ih =>
    have := ih (fun y hy => h y (List.mem_cons_of_mem _ hy))
    have hx := h x (by simp)
    simp only [List.filter_cons]
    cases hp : p x <;> cases hq : q x <;> simp_all <;> omega

theorem filter_lt {α} (p q : α → Bool) (l : List α) (h : ∀ x ∈ l, p x = true → q x = true) (y : α) (hy : y ∈ l)
    (hp : p y = false) (hq : q y = true) : (l.filter p).length < (l.filter q).length := by
  induction l with
  | nil => cases hy
  | cons x l ih =>
    have hx := h x (by simp)
    have h' := fun y hy => h y (List.mem_cons_of_mem _ hy)
    simp only [List.filter_cons]
    rcases List.mem_cons.mp hy with rfl | hy
    · have := filter_le p q l h'
      simp [hp, hq]; omega
    · have := ih h' hy
      cases hp : p x <;> cases hq : q x <;> simp_all <;> omega

theorem wait_mono (wk : Nat → Nat) (ann : List Nat) (s : St) (as : List Act) :
    (wait ann (run wk s as)).length ≤ (wait ann s).length := by
  refine filter_le _ _ _ (fun c _ h => ?_)
  cases ht : s.tunnel c with
  | false => rfl
  | true => rw [tunnel_mono wk as c s ht] at h; cases h

theorem wait_append (wk : Nat → Nat) (as : List Act) (a : Act) (hn : ∀ c, a ≠ .net (.new c)) :
    (setup wk (as ++ [a])).length ≤ (setup wk as).length := by
  have h1 : announced (as ++ [a]) = announced as := by
    rw [announced_append]
    cases a with
    | net e => cases e with
      | new c => exact absurd rfl (hn c)
      | stream c => simp [announced]
      | data c x => simp [announced]
      | down c => simp [announced]
    | work w => simp [announced]
    | accept => simp [announced]
    | close c => simp [announced]
  unfold setup
  rw [h1, run_append]
  exact wait_mono wk (announced as) (run wk {} as) [a]

theorem gentle_few {wk : Nat → Nat} {n : Nat} {as : List Act} (h : Gentle wk n as) : (setup wk as).length ≤ n := by
  induction h with
  | nil => simp [setup, announced]
  | @new as c h hc hn ih =>
    unfold setup
    rw [announced_append, run_append, List.filter_append, List.length_append]
    have h1 : ((announced as).filter fun c_1 => !(run wk (run wk {} as) [.net (.new c)]).tunnel c_1).length = (setup wk as).length := rfl
    have h2 : ((announced [.net (.new c)]).filter fun c_1 => !(run wk (run wk {} as) [.net (.new c)]).tunnel c_1).length ≤ 1 := by
      simp only [announced]
      exact List.length_filter_le _ _
    omega
  | stream h hc ho ih => exact Nat.le_trans (wait_append wk _ _ (by simp)) ih
  | data h hc ih => exact Nat.le_trans (wait_append wk _ _ (by simp)) ih
  | down h hc ih => exact Nat.le_trans (wait_append wk _ _ (by simp)) ih
  | work h ih => exact Nat.le_trans (wait_append wk _ _ (by simp)) ih
  | accept h ih => exact Nat.le_trans (wait_append wk _ _ (by simp)) ih
  | close h ih => exact Nat.le_trans (wait_append wk _ _ (by simp)) ih

/-- A worker with something to do gets on after at most two steps. -/
theorem progress {wk : Nat → Nat} {ann op snt s} (h : Inv wk ann op snt s) (hw : (wait ann s).length ≤ 2) (w : Nat) {e r}
    (hq : s.q w = e :: r) : ∃ bs : List Act, (∀ b ∈ bs, b.own) ∧ (run wk s bs).q w = r := by
  have go : ∀ (s' s'' : St), s'.q w = e :: r → callback s' e = some s'' → (step wk s' (.work w)).q w = r := by
    intro s' s'' hq' hc
    simp only [step, hq', hc]
    exact upd_self _ _ _
  cases e with
  | data c x => exact ⟨[.work w], by simp [Act.own], go s _ hq rfl⟩
  | down c => exact ⟨[.work w], by simp [Act.own], go s _ hq rfl⟩
  | stream c =>
    obtain ⟨_, x2, x3⟩ := h.str w c (by rw [hq]; simp)
    have hcl : s.closed c = false := by
      cases hc : s.closed c with
      | false => rfl
      | true => rw [h.clo c hc] at x3; cases x3
    exact ⟨[.work w], by simp [Act.own], go s { s with buf := upd s.buf c true } hq (by simp [callback, hcl, x2])⟩
  | new c =>
    cases hp : s.pend with
    | none => exact ⟨[.work w], by simp [Act.own], go s { s with pend := some c } hq (by simp [callback, hp])⟩
    | some c2 =>
      obtain ⟨n1, n2, n3, n4⟩ := h.newA w c (by rw [hq]; simp)
      obtain ⟨p1, p2, p3⟩ := h.pendA c2 hp
      cases ha : s.acc with
      | idle =>
        refine ⟨[.accept, .work w], by simp [Act.own], ?_⟩
        have hacc : accept s = { s with acc := .waits c2, pend := none } := by simp [accept, ha, hp]
        refine go (accept s) { accept s with pend := some c } ?_ ?_
        · rw [hacc]; exact hq
        · rw [hacc]; simp [callback]
      | waits c1 =>
        exfalso
        obtain ⟨a1, a2⟩ := h.accA c1 ha
        have hnd : [c, c2, c1].Nodup := by
          simp only [List.nodup_cons, List.mem_cons, List.not_mem_nil, or_false, not_or, List.nodup_nil, and_true, not_false_iff]
          refine ⟨⟨?_, ?_⟩, ?_⟩
          · rintro rfl; exact n3 hp
          · rintro rfl; exact n4 ha
          · rintro rfl; exact p3 ha
        have hsub : [c, c2, c1] ⊆ wait ann s := by
          intro x hx
          simp only [List.mem_cons, List.not_mem_nil, or_false] at hx
          rcases hx with rfl | rfl | rfl
          · exact List.mem_filter.mpr ⟨n1, by simp [n2]⟩
          · exact List.mem_filter.mpr ⟨p1, by simp [p2]⟩
          · exact List.mem_filter.mpr ⟨a1, by simp [a2]⟩
        have := List.Nodup.length_le_of_subset hnd hsub
        simp only [List.length_cons, List.length_nil] at this
        omega
      | ended => exact absurd ha h.fine

theorem drain {wk : Nat → Nat} {ann op snt} (w : Nat) : ∀ (n : Nat) {s}, Inv wk ann op snt s → (wait ann s).length ≤ 2 →
    (s.q w).length = n → ∃ bs : List Act, (∀ b ∈ bs, b.own) ∧ (run wk s bs).q w = [] := by
  intro n
  induction n with
  | zero => intro s h hw hl; exact ⟨[], by simp, List.length_eq_zero_iff.mp hl⟩
  | succ n ih =>
    intro s h hw hl
    cases hq : s.q w with
    | nil => rw [hq] at hl; cases hl
    | cons e r =>
      obtain ⟨b1, o1, q1⟩ := progress h hw w hq
      have hl' : ((run wk s b1).q w).length = n := by rw [q1]; rw [hq] at hl; simpa using hl
      obtain ⟨b2, o2, q2⟩ := ih (own_inv b1 h o1) (Nat.le_trans (wait_mono wk ann s b1) hw) hl'
      refine ⟨b1 ++ b2, ?_, by rw [run_append]; exact q2⟩
      intro b hb
      rcases List.mem_append.mp hb with hb | hb
      · exact o1 b hb
      · exact o2 b hb

theorem got_prefix {wk : Nat → Nat} {n : Nat} {as : List Act} (h : Gentle wk n as) (c : Nat) :
    (run wk {} as).got c <+: sent c as := ⟨_, (gentle_inv h).dat c⟩

/-- **C135** (partial): if gt's own clients are the only ones, and never more than two connections are being set up at the same time, then
whatever happened before, everything sent on a tunnel can still be delivered, by steps of the server alone and in order. Missing:
three connections at a time (`three_clients_stop_the_server`) and other clients (`silent_client_stops_worker`,
`extra_streams_stop_worker`). -/
theorem tunnel_gets_its_data_partial (wk : Nat → Nat) (as : List Act) (h : Gentle wk 2 as) (c : Nat) :
    (run wk {} as).got c <+: sent c as ∧ ∃ bs : List Act, (∀ b ∈ bs, b.own) ∧ (run wk {} (as ++ bs)).got c = sent c as := by
  refine ⟨got_prefix h c, ?_⟩
  have hi := gentle_inv h
  obtain ⟨bs, ho, hq⟩ := drain (wk c) _ hi (gentle_few h) rfl
  refine ⟨bs, ho, ?_⟩
  rw [run_append]
  have := (own_inv bs hi ho).dat c
  rw [hq] at this
  simpa [dataOf] using this

theorem acc_stays (wk : Nat → Nat) (d : Nat) (bs : List Act) : ∀ s : St, Inv wk ann op snt s → s.acc = .waits d → (∀ b ∈ bs, b.own) →
    (run wk s bs).acc = .waits d ∨ (run wk s bs).tunnel d = true := by
  induction bs with
  | nil => intro s _ h _; exact .inl h
  | cons b bs ih =>
    intro s hi h hb
    have hb0 := hb b (by simp)
    have hrest : ∀ x ∈ bs, x.own := fun x hx => hb x (List.mem_cons_of_mem _ hx)
    have hi' : Inv wk ann op snt (step wk s b) := own_inv [b] hi (by simpa using hb0)
    have key : (step wk s b).acc = .waits d ∨ (step wk s b).tunnel d = true := by
      cases b with
      | net e => exact hb0.elim
      | close c => exact hb0.elim
      | work w =>
        left
        simp only [step]
        split
        · exact h
        · rename_i e r hq
          split
          · rename_i s' hs
            cases e with
            | new d => simp only [callback] at hs; split at hs <;> cases hs; exact h
            | stream d =>
              simp only [callback] at hs
              split at hs
              · cases hs; exact h
              · split at hs <;> cases hs; exact h
            | data d x => cases hs; exact h
            | down d => cases hs; exact h
          · exact h
      | accept =>
        simp only [step, accept, h]
        split
        · right; exact upd_self _ _ _
        · split
          · rename_i hc
            have := hi.clo d hc
            exact .inr this
          · exact .inl h
    rcases key with key | key
    · exact ih _ hi' key hrest
    · exact .inr (tunnel_mono wk bs d _ key)

theorem finish {wk : Nat → Nat} {ann op snt s} (h : Inv wk ann op snt s) (hw : (wait ann s).length ≤ 2) (d : Nat)
    (ha : s.acc = .waits d) (ho : d ∈ op) : ∃ bs : List Act, (∀ b ∈ bs, b.own) ∧ (run wk s bs).tunnel d = true := by
  obtain ⟨b1, o1, q1⟩ := drain (wk d) _ h hw rfl
  rcases acc_stays wk d b1 s h ha o1 with hacc | ht
  · have h1 := own_inv b1 h o1
    rcases h1.allS d ho with x | x | x
    · exact ⟨b1, o1, x⟩
    · rw [q1] at x; cases x
    · refine ⟨b1 ++ [.accept], ?_, ?_⟩
      · intro b hb
        rcases List.mem_append.mp hb with hb | hb
        · exact o1 b hb
        · rw [List.mem_singleton] at hb; subst hb; trivial
      · rw [run_append]
        simp only [run, step, accept, hacc, x, if_true]
        exact upd_self _ _ _
  · exact ⟨b1, o1, ht⟩

theorem one_more {wk : Nat → Nat} {ann op snt s} (h : Inv wk ann op snt s) (hw : (wait ann s).length ≤ 2)
    (hop : ∀ c ∈ ann, c ∈ op) (c : Nat) (hc : c ∈ ann) (ht : s.tunnel c = false) :
    ∃ (bs : List Act) (d : Nat), (∀ b ∈ bs, b.own) ∧ d ∈ ann ∧ s.tunnel d = false ∧ (run wk s bs).tunnel d = true := by
  obtain ⟨b1, o1, q1⟩ := drain (wk c) _ h hw rfl
  have h1 := own_inv b1 h o1
  have w1 := Nat.le_trans (wait_mono wk ann s b1) hw
  have back : ∀ d, (run wk s b1).tunnel d = false → s.tunnel d = false := by
    intro d hd
    cases hs : s.tunnel d with
    | false => rfl
    | true => rw [tunnel_mono wk b1 d s hs] at hd; cases hd
  have fin : ∀ (b2 : List Act) (d : Nat), (∀ b ∈ b2, b.own) → Inv wk ann op snt (run wk (run wk s b1) b2) →
      (run wk (run wk s b1) b2).acc = .waits d →
      ∃ (bs : List Act) (d : Nat), (∀ b ∈ bs, b.own) ∧ d ∈ ann ∧ s.tunnel d = false ∧ (run wk s bs).tunnel d = true := by
    intro b2 d o2 h2 ha
    obtain ⟨x1, x2⟩ := h2.accA d ha
    obtain ⟨b3, o3, t3⟩ := finish h2 (Nat.le_trans (wait_mono wk ann _ b2) w1) d ha (hop d x1)
    refine ⟨b1 ++ (b2 ++ b3), d, ?_, x1, ?_, ?_⟩
    · intro b hb
      rcases List.mem_append.mp hb with hb | hb
      · exact o1 b hb
      · rcases List.mem_append.mp hb with hb | hb
        · exact o2 b hb
        · exact o3 b hb
    · apply back
      cases hs : (run wk s b1).tunnel d with
      | false => rfl
      | true => rw [tunnel_mono wk b2 d _ hs] at x2; cases x2
    · rw [run_append, run_append]; exact t3
  cases htc : (run wk s b1).tunnel c with
  | true => exact ⟨b1, c, o1, hc, ht, htc⟩
  | false =>
    cases ha : (run wk s b1).acc with
    | ended => exact absurd ha h1.fine
    | waits d => exact fin [] d (by simp) h1 ha
    | idle =>
      rcases h1.all c hc with x | x | x | x
      · rw [htc] at x; cases x
      · rw [q1] at x; cases x
      · refine fin [.accept] c (by simp [Act.own]) (inv_accept h1) ?_
        simp only [run, step, accept, ha, x]
      · rw [ha] at x; cases x

/-- **C135, tunnels** (partial): under the same assumption, when all clients that have come have opened their streams, the server alone can
give all of them their tunnels. -/
theorem all_get_tunnels_partial (wk : Nat → Nat) (as : List Act) (h : Gentle wk 2 as) (hop : ∀ c ∈ announced as, c ∈ opened as) :
    ∃ bs : List Act, (∀ b ∈ bs, b.own) ∧ ∀ c ∈ announced as, (run wk {} (as ++ bs)).tunnel c = true := by
  have key : ∀ (n : Nat) (s : St), Inv wk (announced as) (opened as) (fun c => sent c as) s → (wait (announced as) s).length ≤ 2 →
      (wait (announced as) s).length = n →
      ∃ bs : List Act, (∀ b ∈ bs, b.own) ∧ ∀ c ∈ announced as, (run wk s bs).tunnel c = true := by
    intro n
    induction n using Nat.strongRecOn with
    | _ n ih =>
      intro s hi hw hl
      cases hwait : wait (announced as) s with
      | nil =>
        refine ⟨[], by simp, ?_⟩
        intro c hc
        cases ht : s.tunnel c with
        | true => exact ht
        | false =>
          have : c ∈ wait (announced as) s := List.mem_filter.mpr ⟨hc, by simp [ht]⟩
          rw [hwait] at this; cases this
      | cons c l =>
        have hm : c ∈ wait (announced as) s := by rw [hwait]; simp
        obtain ⟨hc, ht⟩ := List.mem_filter.mp hm
        have ht' : s.tunnel c = false := by simpa using ht
        obtain ⟨b1, d, o1, hd, t1, t2⟩ := one_more hi hw hop c hc ht'
        have hlt : (wait (announced as) (run wk s b1)).length < n := by
          rw [← hl]
          refine filter_lt _ _ _ ?_ d hd (by simp [t2]) (by simp [t1])
          intro x _ hx
          cases hs : s.tunnel x with
          | false => rfl
          | true => rw [tunnel_mono wk b1 x s hs] at hx; cases hx
        obtain ⟨b2, o2, t3⟩ := ih _ hlt _ (own_inv b1 hi o1) (Nat.le_trans (wait_mono wk _ s b1) hw) rfl
        refine ⟨b1 ++ b2, ?_, ?_⟩
        · intro b hb
          rcases List.mem_append.mp hb with hb | hb
          · exact o1 b hb
          · exact o2 b hb
        · intro x hx; rw [run_append]; exact t3 x hx
  obtain ⟨bs, ho, hb⟩ := key _ _ (gentle_inv h) (gentle_few h) rfl
  exact ⟨bs, ho, fun c hc => by rw [run_append]; exact hb c hc⟩
/-! ## What the code does not guarantee -/

/-- What a step of a worker can change. -/
theorem work_cases (wk : Nat → Nat) (s : St) (w : Nat) :
    step wk s (.work w) = s ∨ ∃ e r s', s.q w = e :: r ∧ callback s e = some s' ∧ step wk s (.work w) = { s' with q := upd s.q w r } := by
  simp only [step]
  cases hq : s.q w with
  | nil => exact .inl rfl
  | cons e r =>
    dsimp only
    cases hc : callback s e with
    | none => exact .inl rfl
    | some s' =>
      refine .inr ⟨e, r, s', rfl, hc, ?_⟩
      have : s'.q = s.q := by
        cases e with
        | new d => simp only [callback] at hc; split at hc <;> cases hc; rfl
        | stream d =>
          simp only [callback] at hc
          split at hc
          · cases hc; rfl
          · split at hc <;> cases hc; rfl
        | data d x => cases hc; rfl
        | down d => cases hc; rfl
      dsimp only
      rw [this]

/-- The accepting goroutine waits for the stream of `c1`, `c2` fills the channel, and the callback for a third connection waits on worker `w`. -/
structure Stuck (wk : Nat → Nat) (w c1 c2 : Nat) (s : St) : Prop where
  head : ∃ c3 r, s.q w = .new c3 :: r
  pend : s.pend = some c2
  acc : s.acc = .waits c1
  buf : s.buf c1 = false
  open_ : s.closed c1 = false
  tun : s.tunnel c1 = false
  noS : ∀ w', w' ≠ w → Evt.stream c1 ∉ s.q w' ∧ Evt.down c1 ∉ s.q w'
  place : ∀ w', ∀ e ∈ s.q w', wk e.conn = w'

theorem stuck_step {wk : Nat → Nat} {w c1 c2 : Nat} {s : St} (h : Stuck wk w c1 c2 s) (a : Act)
    (ha : wk c1 = w ∨ (a ≠ .net (.stream c1) ∧ a ≠ .net (.down c1))) :
    Stuck wk w c1 c2 (step wk s a) ∧ (step wk s a).tunnel = s.tunnel ∧ ∀ c, wk c = w → (step wk s a).got c = s.got c := by
  obtain ⟨c3, r, hq⟩ := h.head
  cases a with
  | net e =>
    refine ⟨{ h with head := ?_, noS := ?_, place := ?_ }, rfl, fun _ _ => rfl⟩
    · simp only [step]
      by_cases hw : w = wk e.conn
      · rw [← hw, upd_self, hq]; exact ⟨c3, r ++ [e], rfl⟩
      · rw [upd_ne _ _ hw]; exact ⟨c3, r, hq⟩
    · intro w' hw'
      simp only [step]
      by_cases he : w' = wk e.conn
      · subst he
        rw [upd_self]
        obtain ⟨x, y⟩ := h.noS _ hw'
        refine ⟨fun hm => ?_, fun hm => ?_⟩
        · rcases List.mem_append.mp hm with hm | hm
          · exact x hm
          · rw [List.mem_singleton] at hm
            subst hm
            rcases ha with ha | ha
            · exact hw' ha
            · exact ha.1 rfl
        · rcases List.mem_append.mp hm with hm | hm
          · exact y hm
          · rw [List.mem_singleton] at hm
            subst hm
            rcases ha with ha | ha
            · exact hw' ha
            · exact ha.2 rfl
      · rw [upd_ne _ _ he]; exact h.noS w' hw'
    · intro w' e' he'
      simp only [step] at he'
      by_cases he : w' = wk e.conn
      · subst he
        rw [upd_self] at he'
        rcases List.mem_append.mp he' with hm | hm
        · exact h.place _ _ hm
        · rw [List.mem_singleton] at hm; subst hm; rfl
      · rw [upd_ne _ _ he] at he'; exact h.place w' e' he'
  | accept =>
    have : step wk s .accept = s := by simp [step, accept, h.acc, h.buf, h.open_]
    rw [this]; exact ⟨h, rfl, fun _ _ => rfl⟩
  | close c =>
    simp only [step]
    split
    · rename_i hc
      refine ⟨{ h with open_ := ?_ }, rfl, fun _ _ => rfl⟩
      dsimp only
      rw [upd_ne _ _ (by rintro rfl; rw [h.tun] at hc; cases hc)]
      exact h.open_
    · exact ⟨h, rfl, fun _ _ => rfl⟩
  | work w' =>
    rcases work_cases wk s w' with e0 | ⟨e, r', s', hq', hcb, e0⟩
    · rw [e0]; exact ⟨h, rfl, fun _ _ => rfl⟩
    · have hw' : w' ≠ w := by
        rintro rfl
        rw [hq] at hq'; cases hq'
        simp [callback, h.pend] at hcb
      have hmem : e ∈ s.q w' := by rw [hq']; simp
      have sub : ∀ x e', e' ∈ upd s.q w' r' x → e' ∈ s.q x := by
        intro x e' he
        by_cases hx : x = w'
        · subst hx; rw [upd_self] at he; rw [hq']; exact List.mem_cons_of_mem _ he
        · rw [upd_ne _ _ hx] at he; exact he
      rw [e0]
      have base : s'.pend = some c2 ∧ s'.acc = .waits c1 ∧ s'.buf c1 = false ∧ s'.closed c1 = false ∧ s'.tunnel = s.tunnel ∧
          ∀ c, wk c = w → s'.got c = s.got c := by
        cases e with
        | new d => simp [callback, h.pend] at hcb
        | stream d =>
          have hd : d ≠ c1 := by rintro rfl; exact (h.noS w' hw').1 hmem
          simp only [callback] at hcb
          split at hcb
          · cases hcb; exact ⟨h.pend, h.acc, h.buf, h.open_, rfl, fun _ _ => rfl⟩
          · split at hcb
            · cases hcb
            · cases hcb
              exact ⟨h.pend, h.acc, by dsimp only; rw [upd_ne _ _ (Ne.symm hd)]; exact h.buf, h.open_, rfl, fun _ _ => rfl⟩
        | data d x =>
          cases hcb
          refine ⟨h.pend, h.acc, h.buf, h.open_, rfl, ?_⟩
          intro c hc
          have hd : wk d = w' := h.place w' _ hmem
          exact upd_ne _ _ (by rintro rfl; exact hw' (hd.symm.trans hc))
        | down d =>
          have hd : d ≠ c1 := by rintro rfl; exact (h.noS w' hw').2 hmem
          cases hcb
          exact ⟨h.pend, h.acc, h.buf, by dsimp only; rw [upd_ne _ _ (Ne.symm hd)]; exact h.open_, rfl, fun _ _ => rfl⟩
      obtain ⟨b1, b2, b3, b4, b5, b6⟩ := base
      refine ⟨⟨⟨c3, r, ?_⟩, b1, b2, b3, b4, ?_, ?_, ?_⟩, b5, b6⟩
      · dsimp only; rw [upd_ne _ _ (Ne.symm hw')]; exact hq
      · exact (congrFun b5 c1).trans h.tun
      · intro x hx
        exact ⟨fun hm => (h.noS x hx).1 (sub _ _ hm), fun hm => (h.noS x hx).2 (sub _ _ hm)⟩
      · intro x e' he; exact h.place x e' (sub _ _ he)

theorem stuck_forever {wk : Nat → Nat} {w c1 c2 : Nat} (as : List Act) : ∀ {s : St}, Stuck wk w c1 c2 s →
    (wk c1 = w ∨ (Act.net (.stream c1) ∉ as ∧ Act.net (.down c1) ∉ as)) →
    (run wk s as).tunnel = s.tunnel ∧ ∀ c, wk c = w → (run wk s as).got c = s.got c := by
  induction as with
  | nil => intro s _ _; exact ⟨rfl, fun _ _ => rfl⟩
  | cons a as ih =>
    intro s h ha
    obtain ⟨h1, h2, h3⟩ := stuck_step h a (by
      rcases ha with ha | ⟨x, y⟩
      · exact .inl ha
      · exact .inr ⟨fun e => x (by simp [e]), fun e => y (by simp [e])⟩)
    obtain ⟨i1, i2⟩ := ih h1 (by
      rcases ha with ha | ⟨x, y⟩
      · exact .inl ha
      · exact .inr ⟨fun e => x (List.mem_cons_of_mem _ e), fun e => y (List.mem_cons_of_mem _ e)⟩)
    exact ⟨i1.trans h2, fun c hc => (i2 c hc).trans (h3 c hc)⟩

/-- Connection 9 has a tunnel; three more clients connect at the same time. -/
def threeAtOnce : List Act :=
  [.net (.new 9), .work 0, .accept, .net (.stream 9), .work 0, .accept,
   .net (.new 1), .net (.new 2), .net (.new 3), .work 0, .accept, .work 0]

/-- **C135 is false (1)**: three well-behaved clients that connect at the same time (their connections belong to one worker) stop the server
for ever: whatever happens afterwards, none of them and no later client gets a tunnel, and the established tunnel 9 receives
nothing any more. -/
theorem three_clients_stop_the_server :
    Gentle (fun _ => 0) 3 threeAtOnce ∧ (run (fun _ => 0) {} threeAtOnce).tunnel 9 = true ∧
    ∀ as : List Act, (∀ c, (run (fun _ => 0) {} (threeAtOnce ++ as)).tunnel c = true → c = 9) ∧
      ∀ c, (run (fun _ => 0) {} (threeAtOnce ++ as)).got c = [] := by
  have hG : Gentle (fun _ => 0) 3 threeAtOnce :=
    .work (as := _) (.accept (as := _) (.work (as := _)
      (.new (as := [.net (.new 9), .work 0, .accept, .net (.stream 9), .work 0, .accept, .net (.new 1), .net (.new 2)])
        (.new (as := [.net (.new 9), .work 0, .accept, .net (.stream 9), .work 0, .accept, .net (.new 1)])
          (.new (as := [.net (.new 9), .work 0, .accept, .net (.stream 9), .work 0, .accept])
            (.accept (as := [.net (.new 9), .work 0, .accept, .net (.stream 9), .work 0])
              (.work (as := [.net (.new 9), .work 0, .accept, .net (.stream 9)])
                (.stream (as := [.net (.new 9), .work 0, .accept])
                  (.accept (as := [.net (.new 9), .work 0]) (.work (as := [.net (.new 9)]) (.new (as := []) .nil (by decide) (by decide))))
                  (by decide) (by decide))))
            (by decide) (by decide))
          (by decide) (by decide))
        (by decide) (by decide))))
  refine ⟨hG, by decide, ?_⟩
  intro as
  have hst : Stuck (fun _ => 0) 0 1 2 (run (fun _ => 0) {} threeAtOnce) := by
    refine ⟨⟨3, [], by decide⟩, by decide, by decide, by decide, by decide, by decide, ?_, (gentle_inv hG).place⟩
    intro w' hw'
    constructor <;> (intro hm; exact hw' ((gentle_inv hG).place w' _ hm).symm)
  obtain ⟨h1, h2⟩ := stuck_forever as hst (.inl rfl)
  rw [run_append]
  refine ⟨fun c hc => ?_, fun c => ?_⟩
  · rw [h1] at hc
    have hann := ((gentle_inv hG).tun c hc).2
    simpa [opened, threeAtOnce] using hann
  · rw [h2 c rfl]
    have := got_prefix hG c
    simpa [sent, threeAtOnce] using this

/-- Once a connection is down, or its tunnel is closed, its streams do not stop a worker any more. -/
theorem ended_connection_does_not_block (wk : Nat → Nat) (s : St) (w c : Nat) (r : List Evt) :
    (s.q w = .down c :: .stream c :: r → (run wk s [.work w, .work w]).q w = r) ∧
    (s.tunnel c = true → s.q w = .stream c :: r → (run wk s [.close c, .work w]).q w = r) := by
  constructor
  · intro h
    simp [run, step, h, callback, upd]
  · intro ht h
    simp [run, step, h, callback, upd, ht]

example : (run (fun _ => 0) {} [.net (.down 1), .net (.stream 1), .net (.data 2 5), .work 0, .work 0]).q 0 = [.data 2 5] := by decide

/-- **C135 is false (2)**: a client that connects and never opens a stream (no credentials are needed for that), and two more connections:
the worker of the last one delivers nothing any more, to any tunnel of its own, as long as the silent client stays. -/
theorem silent_client_stops_worker (wk : Nat → Nat) (s : St) (silent c2 c3 w : Nat) (r : List Evt)
    (hplace : ∀ w', ∀ e ∈ s.q w', wk e.conn = w') (hacc : s.acc = .waits silent) (hpend : s.pend = some c2)
    (hhead : s.q w = .new c3 :: r) (hs : s.buf silent = false ∧ s.closed silent = false ∧ s.tunnel silent = false)
    (hno : ∀ w', Evt.stream silent ∉ s.q w' ∧ Evt.down silent ∉ s.q w')
    (as : List Act) (has : Act.net (.stream silent) ∉ as ∧ Act.net (.down silent) ∉ as) :
    ∀ c, wk c = w → (run wk s as).got c = s.got c :=
  (stuck_forever (c2 := c2) as ⟨⟨c3, r, hhead⟩, hpend, hacc, hs.1, hs.2.1, hs.2.2, fun w' _ => hno w', hplace⟩ (.inr has)).2

/-- Its hypotheses: the silent client is 1 on worker 1; tunnel 9 and the connections 2 and 3 belong to worker 0; something for 9 is waiting. -/
example : let wk : Nat → Nat := fun c => if c = 1 then 1 else 0
    let s := run wk {} [.net (.new 9), .work 0, .accept, .net (.stream 9), .work 0, .accept,
      .net (.new 1), .work 1, .accept, .net (.new 2), .work 0, .net (.new 3), .net (.data 9 7)]
    s.acc = .waits 1 ∧ s.pend = some 2 ∧ s.q 0 = [.new 3, .data 9 7] ∧ s.buf 1 = false ∧ s.closed 1 = false ∧ s.tunnel 1 = false ∧
      s.q 1 = [] ∧ s.tunnel 9 = true ∧ (run wk s [.work 0, .accept, .work 0, .work 0]).got 9 = [] := by decide

/-- A tunnel whose client opened more streams than there is room for. -/
structure Full (wk : Nat → Nat) (w c : Nat) (s : St) : Prop where
  head : ∃ r, s.q w = .stream c :: r
  buf : s.buf c = true
  open_ : s.closed c = false
  pend : s.pend ≠ some c
  acc : s.acc ≠ .waits c
  noN : ∀ w', Evt.new c ∉ s.q w'
  noD : ∀ w', w' ≠ w → Evt.down c ∉ s.q w'
  place : ∀ w', ∀ e ∈ s.q w', wk e.conn = w'
  own : wk c = w

theorem full_step {wk : Nat → Nat} {w c : Nat} {s : St} (h : Full wk w c s) (a : Act)
    (ha : a ≠ .close c ∧ a ≠ .net (.new c)) :
    Full wk w c (step wk s a) ∧ ∀ d, wk d = w → (step wk s a).got d = s.got d := by
  obtain ⟨r, hq⟩ := h.head
  cases a with
  | net e =>
    refine ⟨{ h with head := ?_, noN := ?_, noD := ?_, place := ?_ }, fun _ _ => rfl⟩
    · simp only [step]
      by_cases hw : w = wk e.conn
      · rw [← hw, upd_self, hq]; exact ⟨r ++ [e], rfl⟩
      · rw [upd_ne _ _ hw]; exact ⟨r, hq⟩
    · intro w' hm
      simp only [step] at hm
      by_cases he : w' = wk e.conn
      · subst he
        rw [upd_self] at hm
        rcases List.mem_append.mp hm with hm | hm
        · exact h.noN _ hm
        · rw [List.mem_singleton] at hm; subst hm; exact ha.2 rfl
      · rw [upd_ne _ _ he] at hm; exact h.noN w' hm
    · intro w' hw' hm
      simp only [step] at hm
      by_cases he : w' = wk e.conn
      · subst he
        rw [upd_self] at hm
        rcases List.mem_append.mp hm with hm | hm
        · exact h.noD _ hw' hm
        · rw [List.mem_singleton] at hm; subst hm; exact hw' h.own
      · rw [upd_ne _ _ he] at hm; exact h.noD w' hw' hm
    · intro w' e' he'
      simp only [step] at he'
      by_cases he : w' = wk e.conn
      · subst he
        rw [upd_self] at he'
        rcases List.mem_append.mp he' with hm | hm
        · exact h.place _ _ hm
        · rw [List.mem_singleton] at hm; subst hm; rfl
      · rw [upd_ne _ _ he] at he'; exact h.place w' e' he'
  | accept =>
    simp only [step, accept]
    split
    · split
      · exact ⟨h, fun _ _ => rfl⟩
      · rename_i d hp
        refine ⟨{ h with pend := by simp, acc := ?_ }, fun _ _ => rfl⟩
        simp only [ne_eq, Acc.waits.injEq]
        rintro rfl; exact h.pend hp
    · rename_i d hd
      have hdc : d ≠ c := by rintro rfl; exact h.acc hd
      split
      · refine ⟨{ h with buf := ?_, acc := by simp }, fun _ _ => rfl⟩
        dsimp only; rw [upd_ne _ _ (Ne.symm hdc)]; exact h.buf
      · split
        · exact ⟨{ h with acc := by simp }, fun _ _ => rfl⟩
        · exact ⟨h, fun _ _ => rfl⟩
    · exact ⟨h, fun _ _ => rfl⟩
  | close d =>
    simp only [step]
    split
    · refine ⟨{ h with open_ := ?_ }, fun _ _ => rfl⟩
      dsimp only
      rw [upd_ne _ _ (by rintro rfl; exact ha.1 rfl)]
      exact h.open_
    · exact ⟨h, fun _ _ => rfl⟩
  | work w' =>
    rcases work_cases wk s w' with e0 | ⟨e, r', s', hq', hcb, e0⟩
    · rw [e0]; exact ⟨h, fun _ _ => rfl⟩
    · have hw' : w' ≠ w := by
        rintro rfl
        rw [hq] at hq'; cases hq'
        simp [callback, h.buf, h.open_] at hcb
      have hmem : e ∈ s.q w' := by rw [hq']; simp
      have sub : ∀ x e', e' ∈ upd s.q w' r' x → e' ∈ s.q x := by
        intro x e' he
        by_cases hx : x = w'
        · subst hx; rw [upd_self] at he; rw [hq']; exact List.mem_cons_of_mem _ he
        · rw [upd_ne _ _ hx] at he; exact he
      rw [e0]
      have base : s'.pend ≠ some c ∧ s'.acc ≠ .waits c ∧ s'.buf c = true ∧ s'.closed c = false ∧
          ∀ d, wk d = w → s'.got d = s.got d := by
        cases e with
        | new d =>
          simp only [callback] at hcb
          split at hcb <;> cases hcb
          refine ⟨?_, h.acc, h.buf, h.open_, fun _ _ => rfl⟩
          simp only [ne_eq, Option.some.injEq]
          rintro rfl; exact h.noN w' hmem
        | stream d =>
          have hd : d ≠ c := by rintro rfl; exact hw' ((h.place w' _ hmem).symm.trans h.own)
          simp only [callback] at hcb
          split at hcb
          · cases hcb; exact ⟨h.pend, h.acc, h.buf, h.open_, fun _ _ => rfl⟩
          · split at hcb
            · cases hcb
            · cases hcb
              exact ⟨h.pend, h.acc, by dsimp only; rw [upd_ne _ _ (Ne.symm hd)]; exact h.buf, h.open_, fun _ _ => rfl⟩
        | data d x =>
          cases hcb
          refine ⟨h.pend, h.acc, h.buf, h.open_, ?_⟩
          intro d' hc
          have hd : wk d = w' := h.place w' _ hmem
          exact upd_ne _ _ (by rintro rfl; exact hw' (hd.symm.trans hc))
        | down d =>
          have hd : d ≠ c := by rintro rfl; exact h.noD w' hw' hmem
          cases hcb
          exact ⟨h.pend, h.acc, h.buf, by dsimp only; rw [upd_ne _ _ (Ne.symm hd)]; exact h.open_, fun _ _ => rfl⟩
      obtain ⟨b1, b2, b3, b4, b5⟩ := base
      refine ⟨⟨⟨r, ?_⟩, b3, b4, b1, b2, ?_, ?_, ?_, h.own⟩, b5⟩
      · dsimp only; rw [upd_ne _ _ (Ne.symm hw')]; exact hq
      · intro x hm; exact h.noN x (sub _ _ hm)
      · intro x hx hm; exact h.noD x hx (sub _ _ hm)
      · intro x e' he; exact h.place x e' (sub _ _ he)

/-- **C135 is false (3)**: a client that opens two streams more than it should stops its worker: no tunnel of that worker receives anything
until the server itself closes that client's tunnel, not even if the client goes away. (The listener allows 1024 streams,
listener.cpp:26.) -/
theorem extra_streams_stop_worker (wk : Nat → Nat) (w c : Nat) (s : St) (h : Full wk w c s) (as : List Act)
    (ha : Act.close c ∉ as ∧ Act.net (.new c) ∉ as) : ∀ d, wk d = w → (run wk s as).got d = s.got d := by
  induction as generalizing s with
  | nil => intro d _; rfl
  | cons a as ih =>
    obtain ⟨h1, h2⟩ := full_step h a ⟨fun e => ha.1 (by simp [e]), fun e => ha.2 (by simp [e])⟩
    intro d hd
    exact (ih _ h1 ⟨fun e => ha.1 (List.mem_cons_of_mem _ e), fun e => ha.2 (List.mem_cons_of_mem _ e)⟩ d hd).trans (h2 d hd)

/-- Such a state is reached: client 1 opens three streams, tunnel 9 shares its worker. -/
def extra : List Act :=
  [.net (.new 9), .work 0, .accept, .net (.stream 9), .work 0, .accept, .net (.new 1), .work 0, .accept, .net (.stream 1), .work 0, .accept,
   .net (.stream 1), .work 0, .net (.stream 1), .work 0, .net (.data 9 7), .net (.down 1)]

theorem extra_queue : (run (fun _ => 0) {} extra).q = fun w => if w = 0 then [.stream 1, .data 9 7, .down 1] else [] := by
  funext w
  by_cases hw : w = 0
  · subst hw; decide
  · simp [extra, run, step, accept, callback, upd, Evt.conn, hw]

example : Full (fun _ => 0) 0 1 (run (fun _ => 0) {} extra) ∧ (run (fun _ => 0) {} extra).tunnel 9 = true ∧
    (run (fun _ => 0) {} extra).got 9 = [] := by
  refine ⟨⟨⟨[.data 9 7, .down 1], by decide⟩, by decide, by decide, by decide, by decide, ?_, ?_, ?_, rfl⟩, by decide, by decide⟩
  · intro w; rw [extra_queue]; dsimp only; split <;> simp
  · intro w hw; rw [extra_queue]; dsimp only; rw [if_neg hw]; simp
  · intro w e he
    rw [extra_queue] at he
    dsimp only at he
    split at he
    · rename_i hw; exact hw.symm
    · cases he

/-- Two clients at a time are fine: the hypotheses of the positive theorems hold after two overlapping connections, which both get
their tunnels. -/
example : Gentle (fun _ => 0) 2 [.net (.new 1), .net (.new 2), .net (.stream 1), .net (.stream 2)] ∧
    (∀ c ∈ announced [.net (.new 1), .net (.new 2), .net (.stream 1), .net (.stream 2)],
      c ∈ opened [.net (.new 1), .net (.new 2), .net (.stream 1), .net (.stream 2)]) ∧
    (run (fun _ => 0) {} ([.net (.new 1), .net (.new 2), .net (.stream 1), .net (.stream 2)] ++
      [.work 0, .accept, .work 0, .work 0, .accept, .accept, .work 0, .accept])).tunnel 2 = true := by
  refine ⟨?_, by decide, by decide⟩
  exact .stream (as := [.net (.new 1), .net (.new 2), .net (.stream 1)])
    (.stream (as := [.net (.new 1), .net (.new 2)]) (.new (as := [.net (.new 1)]) (.new (as := []) .nil (by decide) (by decide))
      (by decide) (by decide)) (by decide) (by decide)) (by decide) (by decide)

end Verif.Quic.Worker
