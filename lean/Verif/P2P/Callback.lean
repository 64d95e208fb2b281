import Verif.Common
set_option linter.unusedSimpArgs false
set_option linter.unusedVariables false
/-!
# C101: one P2P channel does not stop the others (libcs/client/peer.go:519-622, libcs/util/blockvalue.go)

All callbacks of the channels that share a thread of the pool run one after the other on that thread. `OnOpen` runs in a goroutine of
its own and connects to the local service; the callbacks for messages and for the end of the channel wait (`BlockValue.Get`) until it
has announced the connection (`BlockValue.Set`, libcs/client/peer.go:556) - which it does not if the connection fails (551-554). Closing a channel
(`dataChannel.Close`, libcs/client/peer.go:546) unregisters it on the same thread.

The library is represented by its contract: callbacks of a channel come in order, the opening first, and none after it was
unregistered.
-/
namespace Verif.P2P.Callback

/-- A piece of work for the thread. -/
inductive CB where
  | opened
  /-- a message; messages are numbered -/
  | msg (v : Nat)
  | closed
  | unregister
deriving DecidableEq, Repr

/-- The goroutine `OnOpen` of a channel. -/
inductive PC where
  | fresh | dialing | up
  /-- the connection to the service failed -/
  | failed
  /-- the exchange is over -/
  | leaving
  | gone
deriving DecidableEq, Repr

structure Ch where
  pc : PC := .fresh
  /-- the library has announced the opening -/
  known : Bool := false
  /-- `httpTask` is set -/
  task : Bool := false
  /-- messages written to the service -/
  got : List Nat := []
  /-- the connection to the service was closed -/
  shut : Bool := false
deriving DecidableEq, Repr

structure St where
  /-- the work waiting for the thread, the piece in progress first -/
  q : List (Nat × CB)
  ch : Nat → Ch

def init : St := ⟨[], fun _ => {}⟩

def upd (f : Nat → Ch) (c : Nat) (v : Ch) : Nat → Ch := fun x => if x = c then v else f x

inductive Ev where
  /-- the library has a callback for channel `c` -/
  | lib (c : Nat) (cb : CB)
  /-- the thread works on the first piece -/
  | thread
  | dialOk (c : Nat)
  | dialFail (c : Nat)
  /-- the service closes its connection: the goroutine ends -/
  | finish (c : Nat)
deriving DecidableEq, Repr

/-- The thread's step: libcs/client/peer.go:594-606 `OnStateChange`, 608-622 `OnMessage`, with `BlockValue.Get` (blockvalue.go:34-39). A channel opens
only once. -/
def work (s : St) : St :=
  match s.q with
  | [] => s
  | (c, .opened) :: q => ⟨q, upd s.ch c { s.ch c with pc := if (s.ch c).pc = .fresh then .dialing else (s.ch c).pc }⟩
  | (c, .msg v) :: q =>
    if (s.ch c).task then ⟨q, upd s.ch c { s.ch c with got := (s.ch c).got ++ [v] }⟩ else s
  | (c, .closed) :: q => if (s.ch c).task then ⟨q, upd s.ch c { s.ch c with shut := true }⟩ else s
  | (c, .unregister) :: q => ⟨q.filter (fun x => x.1 != c), upd s.ch c { s.ch c with pc := .gone }⟩

/-- libcs/client/peer.go:526-591 `OnOpen`, and the arrival of callbacks. -/
def next (s : St) : Ev → St
  | .lib c .opened =>
    if (s.ch c).known then s else ⟨s.q ++ [(c, .opened)], upd s.ch c { s.ch c with known := true }⟩
  | .lib c (.msg v) => if (s.ch c).known ∧ (s.ch c).pc ≠ .gone then { s with q := s.q ++ [(c, .msg v)] } else s
  | .lib c .closed => if (s.ch c).known ∧ (s.ch c).pc ≠ .gone then { s with q := s.q ++ [(c, .closed)] } else s
  | .lib _ .unregister => s
  | .thread => work s
  | .dialOk c => if (s.ch c).pc = .dialing then { s with ch := upd s.ch c { s.ch c with pc := .up, task := true } } else s
  | .dialFail c =>
    if (s.ch c).pc = .dialing then ⟨s.q ++ [(c, .unregister)], upd s.ch c { s.ch c with pc := .failed }⟩ else s
  | .finish c =>
    if (s.ch c).pc = .up then ⟨s.q ++ [(c, .unregister)], upd s.ch c { s.ch c with pc := .leaving }⟩ else s

def run (s : St) : List Ev → St
  | [] => s
  | e :: es => run (next s e) es

theorem run_append (s : St) (a b : List Ev) : run s (a ++ b) = run (run s a) b := by
  induction a generalizing s with
  | nil => rfl
  | cons e a ih => exact ih _

/-! ## Specification -/

/-- The messages of channel `c` that the library reported after the channel was announced, in order. -/
def came (c : Nat) : St → List Ev → List Nat
  | _, [] => []
  | s, .lib d (.msg v) :: es =>
    if d = c ∧ (s.ch c).known = true then v :: came c (next s (.lib d (.msg v))) es else came c (next s (.lib d (.msg v))) es
  | s, e :: es => came c (next s e) es

/-- The messages of channel `c` among pieces of work. -/
def msgsOf (c : Nat) (q : List (Nat × CB)) : List Nat :=
  q.filterMap (fun x => match x.2 with | .msg v => if x.1 = c then some v else none | _ => none)

/-- No connection to the service fails. -/
def NoFail (es : List Ev) : Prop := ∀ e ∈ es, ∀ c, e ≠ .dialFail c

/-! ## What holds -/

theorem upd_self (f : Nat → Ch) (c : Nat) (v : Ch) : upd f c v c = v := by simp [upd]
theorem upd_ne (f : Nat → Ch) {c d : Nat} (v : Ch) (h : d ≠ c) : upd f c v d = f d := by simp [upd, h]

theorem msgsOf_append (c : Nat) (a b : List (Nat × CB)) : msgsOf c (a ++ b) = msgsOf c a ++ msgsOf c b := by
  simp [msgsOf]

theorem msgsOf_filter_ne (c d : Nat) (q : List (Nat × CB)) (h : d ≠ c) : msgsOf d (q.filter (fun x => x.1 != c)) = msgsOf d q := by
  induction q with
  | nil => rfl
  | cons x q ih =>
    simp only [List.filter_cons]
    split
    · simp only [msgsOf, List.filterMap_cons] at ih ⊢
      split <;> simp [ih]
    · rename_i hx
      simp only [bne_iff_ne, ne_eq, Decidable.not_not] at hx
      simp only [msgsOf, List.filterMap_cons] at ih ⊢
      rw [ih]
      obtain ⟨a, b⟩ := x
      simp only at hx
      subst hx
      cases b <;> simp [Ne.symm h]

theorem msgsOf_filter_self (c : Nat) (q : List (Nat × CB)) : msgsOf c (q.filter (fun x => x.1 != c)) = [] := by
  induction q with
  | nil => rfl
  | cons x q ih =>
    simp only [List.filter_cons]
    split
    · rename_i hx
      simp only [bne_iff_ne, ne_eq] at hx
      obtain ⟨a, b⟩ := x
      simp only [msgsOf, List.filterMap_cons] at ih ⊢
      rw [ih]
      simp only at hx
      cases b <;> simp [hx]
    · exact ih

/-- Delivered, waiting and dropped messages of channel `c` make up `total`; messages are dropped only once the channel is gone. -/
structure Acc (c : Nat) (s : St) (total : List Nat) : Prop where
  all : ∃ t, (s.ch c).got ++ msgsOf c s.q ++ t = total ∧ (t ≠ [] → (s.ch c).pc = .gone)
  gone : (s.ch c).pc = .gone → msgsOf c s.q = []

theorem acc_same {c : Nat} {s s' : St} {total : List Nat} (h : Acc c s total) (h1 : (s'.ch c).got = (s.ch c).got)
    (h2 : (s'.ch c).pc = .gone ↔ (s.ch c).pc = .gone) (h3 : msgsOf c s'.q = msgsOf c s.q) : Acc c s' total := by
  obtain ⟨⟨t, a, b⟩, g⟩ := h
  exact ⟨⟨t, by rw [h1, h3]; exact a, fun ht => h2.2 (b ht)⟩, fun hg => by rw [h3]; exact g (h2.1 hg)⟩

theorem msgsOf_one (c : Nat) (x : Nat × CB) (h : ∀ v, x ≠ (c, .msg v)) : msgsOf c [x] = [] := by
  obtain ⟨d, b⟩ := x
  cases b <;> simp [msgsOf]
  intro hd; exact h _ (by rw [hd])

theorem msgsOf_snoc (c : Nat) (q : List (Nat × CB)) (x : Nat × CB) (h : ∀ v, x ≠ (c, .msg v)) : msgsOf c (q ++ [x]) = msgsOf c q := by
  rw [msgsOf_append, msgsOf_one c x h, List.append_nil]

theorem msgsOf_cons (c : Nat) (q : List (Nat × CB)) (x : Nat × CB) (h : ∀ v, x ≠ (c, .msg v)) : msgsOf c (x :: q) = msgsOf c q := by
  rw [show x :: q = [x] ++ q from rfl, msgsOf_append, msgsOf_one c x h, List.nil_append]

theorem upd_got {f : Nat → Ch} {c : Nat} {v : Ch} (d : Nat) (h : v.got = (f c).got) : (upd f c v d).got = (f d).got := by
  by_cases hd : d = c
  · subst hd; rw [upd_self, h]
  · rw [upd_ne _ _ hd]

theorem upd_gone {f : Nat → Ch} {c : Nat} {v : Ch} (d : Nat) (h : v.pc = .gone ↔ (f c).pc = .gone) :
    (upd f c v d).pc = .gone ↔ (f d).pc = .gone := by
  by_cases hd : d = c
  · subst hd; rw [upd_self]; exact h
  · rw [upd_ne _ _ hd]

theorem acc_work (c : Nat) (s : St) (total : List Nat) (h : Acc c s total) : Acc c (work s) total := by
  obtain ⟨q, ch⟩ := s
  cases q with
  | nil => exact h
  | cons x q =>
    obtain ⟨d, cb⟩ := x
    cases cb with
    | opened =>
      simp only [work]
      refine acc_same h (upd_got c rfl) (upd_gone c ?_) (msgsOf_cons c q _ (by simp)).symm
      simp only
      split
      · rename_i hf; simp [hf]
      · exact Iff.rfl
    | closed =>
      simp only [work]
      split
      · exact acc_same h (upd_got c rfl) (upd_gone c Iff.rfl) (msgsOf_cons c q _ (by simp)).symm
      · exact h
    | msg v =>
      simp only [work]
      split
      · by_cases hd : d = c
        · subst hd
          obtain ⟨⟨t, a, b⟩, g⟩ := h
          have e : msgsOf d ((d, CB.msg v) :: q) = v :: msgsOf d q := by simp [msgsOf]
          simp only [e] at a g
          refine ⟨⟨t, ?_, ?_⟩, ?_⟩
          · simp only [upd_self]; rw [← a]; simp
          · simp only [upd_self]; exact b
          · simp only [upd_self]; intro hg; exact absurd (g hg) (by simp)
        · refine acc_same h ?_ ?_ (msgsOf_cons c q _ (by simp [hd])).symm
          · simp only; rw [upd_ne _ _ (Ne.symm hd)]
          · simp only; rw [upd_ne _ _ (Ne.symm hd)]
      · exact h
    | unregister =>
      simp only [work]
      by_cases hd : d = c
      · subst hd
        obtain ⟨⟨t, a, b⟩, g⟩ := h
        refine ⟨⟨msgsOf d ((d, CB.unregister) :: q) ++ t, ?_, ?_⟩, ?_⟩
        · simp only [upd_self, msgsOf_filter_self]; rw [← a]; simp
        · simp only [upd_self]; intro _; trivial
        · intro _; simp only [msgsOf_filter_self]
      · refine acc_same h ?_ ?_ ?_
        · simp only; rw [upd_ne _ _ (Ne.symm hd)]
        · simp only; rw [upd_ne _ _ (Ne.symm hd)]
        · simp only; rw [msgsOf_filter_ne _ _ _ (Ne.symm hd), msgsOf_cons c q _ (by simp)]

/-- What one event adds to the messages of channel `c`. -/
def adds (c : Nat) (s : St) : Ev → List Nat
  | .lib d (.msg v) => if d = c ∧ (s.ch c).known = true then [v] else []
  | _ => []

theorem came_cons (c : Nat) (s : St) (e : Ev) (es : List Ev) : came c s (e :: es) = adds c s e ++ came c (next s e) es := by
  cases e with
  | lib d cb =>
    cases cb with
    | msg v => simp only [came, adds]; split <;> rfl
    | opened => rfl
    | closed => rfl
    | unregister => rfl
  | thread => rfl
  | dialOk d => rfl
  | dialFail d => rfl
  | finish d => rfl

theorem acc_next (c : Nat) (s : St) (total : List Nat) (e : Ev) (h : Acc c s total) : Acc c (next s e) (total ++ adds c s e) := by
  cases e with
  | thread => simp only [next, adds, List.append_nil]; exact acc_work c s total h
  | lib d cb =>
    cases cb with
    | opened =>
      simp only [next, adds, List.append_nil]
      split
      · exact h
      · exact acc_same h (upd_got c rfl) (upd_gone c Iff.rfl) (msgsOf_snoc c _ _ (by simp))
    | closed =>
      simp only [next, adds, List.append_nil]
      split
      · exact acc_same h rfl Iff.rfl (msgsOf_snoc c _ _ (by simp))
      · exact h
    | unregister => simp only [next, adds, List.append_nil]; exact h
    | msg v =>
      simp only [next, adds]
      by_cases hd : d = c
      · subst hd
        by_cases hk : (s.ch d).known = true
        · by_cases hg : (s.ch d).pc = .gone
          · rw [if_neg (by simp [hg]), if_pos ⟨rfl, hk⟩]
            obtain ⟨⟨t, a, b⟩, g⟩ := h
            refine ⟨⟨t ++ [v], ?_, fun _ => hg⟩, g⟩
            rw [← a]; simp
          · rw [if_pos ⟨hk, hg⟩, if_pos ⟨rfl, hk⟩]
            obtain ⟨⟨t, a, b⟩, g⟩ := h
            have ht : t = [] := by
              apply Decidable.byContradiction
              intro hx; exact hg (b hx)
            subst ht
            refine ⟨⟨[], ?_, by simp⟩, fun hx => absurd hx hg⟩
            simp only [msgsOf_append]
            rw [← a]; simp [msgsOf]
        · rw [if_neg (by simp [hk]), if_neg (by simp [hk]), List.append_nil]; exact h
      · rw [if_neg (c := d = c ∧ (s.ch c).known = true) (fun hx => hd hx.1), List.append_nil]
        split
        · exact acc_same h rfl Iff.rfl (msgsOf_snoc c _ _ (by simp [hd]))
        · exact h
  | dialOk d =>
    simp only [next, adds, List.append_nil]
    split
    · rename_i hp
      exact acc_same h (upd_got c rfl) (upd_gone c (by simp [hp])) rfl
    · exact h
  | dialFail d =>
    simp only [next, adds, List.append_nil]
    split
    · rename_i hp
      exact acc_same h (upd_got c rfl) (upd_gone c (by simp [hp])) (msgsOf_snoc c _ _ (by simp))
    · exact h
  | finish d =>
    simp only [next, adds, List.append_nil]
    split
    · rename_i hp
      exact acc_same h (upd_got c rfl) (upd_gone c (by simp [hp])) (msgsOf_snoc c _ _ (by simp))
    · exact h

theorem acc_run (c : Nat) (es : List Ev) : ∀ (s : St) (total : List Nat), Acc c s total → Acc c (run s es) (total ++ came c s es) := by
  induction es with
  | nil => intro s total h; simpa [run, came] using h
  | cons e es ih =>
    intro s total h
    rw [came_cons, ← List.append_assoc]
    exact ih _ _ (acc_next c s total e h)

/-- **Messages reach the service in order, none twice and none skipped** - a prefix of what came in - for every interleaving and
whatever fails; what is neither delivered nor waiting came to a channel that is over. -/
theorem delivered_prefix (c : Nat) (es : List Ev) : ∃ t, ((run init es).ch c).got ++ msgsOf c (run init es).q ++ t = came c init es ∧
    (t ≠ [] → ((run init es).ch c).pc = .gone) := by
  have h0 : Acc c init [] := ⟨⟨[], rfl, by simp⟩, fun _ => rfl⟩
  have := (acc_run c es init [] h0).all
  simpa using this

/-! ## Progress when no connection to the service fails -/

/-- In the queue every piece of work of a channel comes after its opening, unless the channel was opened before. -/
def Ok (st : Nat → Bool) : List (Nat × CB) → Prop
  | [] => True
  | (c, .opened) :: q => Ok (fun x => x == c || st x) q
  | (c, .msg _) :: q => st c = true ∧ Ok st q
  | (c, .closed) :: q => st c = true ∧ Ok st q
  | (c, .unregister) :: q => st c = true ∧ Ok st q

theorem ok_congr (q : List (Nat × CB)) : ∀ {f g : Nat → Bool}, (∀ x, f x = true → g x = true) → Ok f q → Ok g q := by
  induction q with
  | nil => intros; trivial
  | cons x q ih =>
    intro f g h hq
    obtain ⟨c, cb⟩ := x
    cases cb with
    | opened =>
      refine ih (fun x hx => ?_) hq
      simp only [Bool.or_eq_true, beq_iff_eq] at hx ⊢
      exact hx.imp id (h x)
    | msg v => exact ⟨h _ hq.1, ih h hq.2⟩
    | closed => exact ⟨h _ hq.1, ih h hq.2⟩
    | unregister => exact ⟨h _ hq.1, ih h hq.2⟩

theorem ok_snoc (q : List (Nat × CB)) (c : Nat) (cb : CB) : ∀ (f : Nat → Bool), Ok f q → (cb ≠ .opened → f c = true ∨ (c, CB.opened) ∈ q) →
    Ok f (q ++ [(c, cb)]) := by
  induction q with
  | nil =>
    intro f _ h
    cases cb with
    | opened => trivial
    | msg v => exact ⟨by simpa using h (by simp), trivial⟩
    | closed => exact ⟨by simpa using h (by simp), trivial⟩
    | unregister => exact ⟨by simpa using h (by simp), trivial⟩
  | cons x q ih =>
    intro f hq h
    obtain ⟨d, b⟩ := x
    cases b with
    | opened =>
      refine ih _ hq (fun hn => ?_)
      simp only [Bool.or_eq_true, beq_iff_eq]
      rcases h hn with h | h
      · exact Or.inl (Or.inr h)
      · rcases List.mem_cons.1 h with h | h
        · simp only [Prod.mk.injEq] at h; exact Or.inl (Or.inl h.1)
        · exact Or.inr h
    | msg v => exact ⟨hq.1, ih f hq.2 (fun hn => (h hn).imp id (fun hm => by simpa using hm))⟩
    | closed => exact ⟨hq.1, ih f hq.2 (fun hn => (h hn).imp id (fun hm => by simpa using hm))⟩
    | unregister => exact ⟨hq.1, ih f hq.2 (fun hn => (h hn).imp id (fun hm => by simpa using hm))⟩

theorem ok_filter (c : Nat) (q : List (Nat × CB)) : ∀ (f : Nat → Bool), Ok f q → Ok f (q.filter (fun x => x.1 != c)) := by
  induction q with
  | nil => intros; trivial
  | cons x q ih =>
    intro f hq
    obtain ⟨d, b⟩ := x
    simp only [List.filter_cons]
    split
    · cases b with
      | opened => exact ih _ hq
      | msg v => exact ⟨hq.1, ih _ hq.2⟩
      | closed => exact ⟨hq.1, ih _ hq.2⟩
      | unregister => exact ⟨hq.1, ih _ hq.2⟩
    · rename_i hx
      simp only [bne_iff_ne, ne_eq, Decidable.not_not] at hx
      subst hx
      cases b with
      | opened =>
        have : ∀ (q : List (Nat × CB)) (f : Nat → Bool), Ok (fun x => x == d || f x) (q.filter (fun x => x.1 != d)) →
            Ok f (q.filter (fun x => x.1 != d)) := by
          intro q
          induction q with
          | nil => intros; trivial
          | cons y q ih2 =>
            intro f h
            obtain ⟨e, b⟩ := y
            simp only [List.filter_cons] at h ⊢
            split at h
            · rename_i he
              simp only [bne_iff_ne, ne_eq] at he
              rw [if_pos (by simpa using he)]
              cases b with
              | opened =>
                apply ih2
                refine ok_congr _ (fun x hx => ?_) h
                simp only [Bool.or_eq_true, beq_iff_eq] at hx ⊢
                rcases hx with h | h | h
                · exact Or.inr (Or.inl h)
                · exact Or.inl h
                · exact Or.inr (Or.inr h)
              | msg v => exact ⟨by simpa [he] using h.1, ih2 _ h.2⟩
              | closed => exact ⟨by simpa [he] using h.1, ih2 _ h.2⟩
              | unregister => exact ⟨by simpa [he] using h.1, ih2 _ h.2⟩
            · rename_i he
              rw [if_neg he]
              exact ih2 _ h
        exact this q f (ih _ hq)
      | msg v => exact ih _ hq.2
      | closed => exact ih _ hq.2
      | unregister => exact ih _ hq.2

/-- The channel's goroutine has been started. -/
def started (s : St) (c : Nat) : Bool := decide ((s.ch c).pc ≠ .fresh)

/-- The invariant of histories in which no connection fails. -/
structure Inv (s : St) : Prop where
  ok : Ok (started s) s.q
  known : ∀ c, (s.ch c).known = true → started s c = true ∨ (c, CB.opened) ∈ s.q
  task : ∀ c, (s.ch c).pc = .up ∨ (s.ch c).pc = .leaving ∨ (s.ch c).pc = .gone → (s.ch c).task = true
  nofail : ∀ c, (s.ch c).pc ≠ .failed
  unreg : ∀ c, (c, CB.unregister) ∈ s.q → (s.ch c).task = true

theorem inv_init : Inv init :=
  ⟨trivial, fun c h => by simp [init] at h, fun c h => by simp [init] at h, fun c h => by simp [init] at h, fun c h => by simp [init] at h⟩

theorem started_upd (s : St) (q : List (Nat × CB)) (c : Nat) (v : Ch) (h : (s.ch c).pc ≠ .fresh → v.pc ≠ .fresh) (x : Nat)
    (hx : started s x = true) : started ⟨q, upd s.ch c v⟩ x = true := by
  simp only [started, decide_eq_true_eq] at hx ⊢
  by_cases hc : x = c
  · subst hc; rw [upd_self]; exact h hx
  · rw [upd_ne _ _ hc]; exact hx

theorem inv_next (s : St) (e : Ev) (he : ∀ c, e ≠ .dialFail c) (h : Inv s) : Inv (next s e) := by
  have h0 := h
  obtain ⟨hok, hk, ht, hn, hu⟩ := h
  have keep : ∀ (q : List (Nat × CB)) (c : Nat) (v : Ch), Ok (started ⟨q, upd s.ch c v⟩) q →
      (∀ d, (s.ch d).known = true → started ⟨q, upd s.ch c v⟩ d = true ∨ (d, CB.opened) ∈ q) →
      (v.known = true → started ⟨q, upd s.ch c v⟩ c = true ∨ (c, CB.opened) ∈ q) →
      (v.pc = .up ∨ v.pc = .leaving ∨ v.pc = .gone → v.task = true) → v.pc ≠ .failed →
      (∀ d, (d, CB.unregister) ∈ q → (d = c ∧ v.task = true) ∨ (d, CB.unregister) ∈ s.q) → ((s.ch c).task = true → v.task = true) →
      Inv ⟨q, upd s.ch c v⟩ := by
    intro q c v h1 h2 h2' h3 h4 h5 h6
    refine ⟨h1, ?_, ?_, ?_, ?_⟩
    · intro d hd
      by_cases hc : d = c
      · subst hc; simp only [upd_self] at hd; exact h2' hd
      · simp only [upd_ne _ _ hc] at hd; exact h2 d hd
    · intro d hd
      by_cases hc : d = c
      · subst hc; simp only [upd_self] at hd ⊢; exact h3 hd
      · simp only [upd_ne _ _ hc] at hd ⊢; exact ht d hd
    · intro d
      by_cases hc : d = c
      · subst hc; simp only [upd_self]; exact h4
      · simp only [upd_ne _ _ hc]; exact hn d
    · intro d hd
      by_cases hc : d = c
      · subst hc; simp only [upd_self]
        rcases h5 d hd with h | h
        · exact h.2
        · exact h6 (hu d h)
      · simp only [upd_ne _ _ hc]
        rcases h5 d hd with h | h
        · exact absurd h.1 hc
        · exact hu d h
  cases e with
  | dialFail c => exact absurd rfl (he c)
  | lib d cb =>
    cases cb with
    | opened =>
      simp only [next]
      split
      · exact h0
      · rename_i hkn
        refine keep _ _ _ ?_ ?_ ?_ (ht d) (hn d) (fun x hx => Or.inr (by simpa using hx)) id
        · exact ok_snoc _ _ _ _ (ok_congr _ (fun x hx => started_upd s _ d { s.ch d with known := true } id x hx) hok) (by simp)
        · intro x hx
          exact (hk x hx).imp (fun hx => started_upd s _ d { s.ch d with known := true } id x hx) (fun hx => by simp [hx])
        · intro _; exact Or.inr (by simp)
    | msg v =>
      simp only [next]
      split
      · rename_i hc
        exact ⟨ok_snoc _ _ _ _ hok (fun _ => hk d hc.1), fun c hcn => (hk c hcn).imp id (fun hx => by simp [hx]), ht, hn,
          fun c hx => hu c (by simpa using hx)⟩
      · exact h0
    | closed =>
      simp only [next]
      split
      · rename_i hc
        exact ⟨ok_snoc _ _ _ _ hok (fun _ => hk d hc.1), fun c hcn => (hk c hcn).imp id (fun hx => by simp [hx]), ht, hn,
          fun c hx => hu c (by simpa using hx)⟩
      · exact h0
    | unregister => exact h0
  | dialOk c =>
    simp only [next]
    split
    · rename_i hp
      have hst := fun x hx => started_upd s s.q c { s.ch c with pc := .up, task := true } (by simp) x hx
      exact keep _ _ _ (ok_congr _ hst hok) (fun d hd => (hk d hd).imp (hst d) id) (fun _ => Or.inl (by simp [started, upd])) (by simp)
        (by simp) (fun d hd => Or.inr hd) (by simp)
    · exact h0
  | finish c =>
    simp only [next]
    split
    · rename_i hp
      have hst := fun x hx => started_upd s (s.q ++ [(c, .unregister)]) c { s.ch c with pc := .leaving } (by simp) x hx
      refine keep _ _ _ (ok_snoc _ _ _ _ (ok_congr _ hst hok) (fun _ => Or.inl (by simp [started, upd])))
        (fun d hd => (hk d hd).imp (hst d) (fun hx => by simp [hx])) (fun _ => Or.inl (by simp [started, upd])) ?_ (by simp) ?_ id
      · intro _; exact ht c (Or.inl hp)
      · intro d hd
        simp only [List.mem_append, List.mem_singleton, Prod.mk.injEq, and_true] at hd
        rcases hd with hd | hd
        · exact Or.inr hd
        · exact Or.inl ⟨hd, ht c (Or.inl hp)⟩
    · exact h0
  | thread =>
    obtain ⟨q, ch⟩ := s
    cases q with
    | nil => exact h0
    | cons x q =>
      obtain ⟨d, cb⟩ := x
      cases cb with
      | opened =>
        simp only [next, work]
        have hnf : (if (ch d).pc = .fresh then PC.dialing else (ch d).pc) ≠ .fresh := by split <;> simp_all
        have hst := fun x hx => started_upd ⟨(d, .opened) :: q, ch⟩ q d
          { ch d with pc := if (ch d).pc = .fresh then .dialing else (ch d).pc } (fun _ => hnf) x hx
        refine keep _ _ _ ?_ ?_ ?_ ?_ ?_ (fun x hx => Or.inr (by simp [hx])) id
        · refine ok_congr _ (fun x hx => ?_) (show Ok _ q from hok)
          simp only [Bool.or_eq_true, beq_iff_eq] at hx
          rcases hx with hx | hx
          · subst hx; simp [started, upd]; split <;> simp_all
          · exact hst x hx
        · intro x hx
          rcases hk x hx with h | h
          · exact Or.inl (hst x h)
          · rcases List.mem_cons.1 h with h | h
            · simp only [Prod.mk.injEq, and_true] at h
              subst h
              exact Or.inl (by simp [started, upd]; split <;> simp_all)
            · exact Or.inr h
        · intro _; exact Or.inl (by simp [started, upd]; split <;> simp_all)
        · intro hx
          apply ht d
          simp only at hx ⊢
          split at hx
          · simp at hx
          · exact hx
        · have := hn d
          simp only at this ⊢
          split <;> simp_all
      | msg v =>
        simp only [next, work]
        split
        · have hst := fun x hx => started_upd ⟨(d, .msg v) :: q, ch⟩ q d { ch d with got := (ch d).got ++ [v] } id x hx
          refine keep _ _ _ (ok_congr _ hst hok.2) ?_ ?_ (ht d) (hn d) (fun x hx => Or.inr (by simp [hx])) id
          · intro x hx
            exact (hk x hx).imp (hst x) (fun hm => by simpa using hm)
          · intro hx
            exact (hk d hx).imp (hst d) (fun hm => by simpa using hm)
        · exact h0
      | closed =>
        simp only [next, work]
        split
        · have hst := fun x hx => started_upd ⟨(d, .closed) :: q, ch⟩ q d { ch d with shut := true } id x hx
          refine keep _ _ _ (ok_congr _ hst hok.2) ?_ ?_ (ht d) (hn d) (fun x hx => Or.inr (by simp [hx])) id
          · intro x hx
            exact (hk x hx).imp (hst x) (fun hm => by simpa using hm)
          · intro hx
            exact (hk d hx).imp (hst d) (fun hm => by simpa using hm)
        · exact h0
      | unregister =>
        simp only [next, work]
        have htask := hu d (by simp)
        have hst := fun x hx => started_upd ⟨(d, .unregister) :: q, ch⟩ (q.filter (fun x => x.1 != d)) d { ch d with pc := .gone } (by simp) x hx
        refine keep _ _ _ (ok_congr _ hst (ok_filter d q _ hok.2)) ?_ (fun _ => Or.inl (by simp [started, upd])) (fun _ => htask) (by simp) ?_ id
        · intro x hx
          by_cases hxd : x = d
          · subst hxd; exact Or.inl (by simp [started, upd])
          · refine (hk x hx).imp (hst x) (fun hm => ?_)
            have : (x, CB.opened) ∈ q := by simpa using hm
            simp [this, hxd]
        · intro x hx
          simp only [List.mem_filter] at hx
          exact Or.inr (by simp [hx.1])

theorem inv_run (es : List Ev) : ∀ s, NoFail es → Inv s → Inv (run s es) := by
  induction es with
  | nil => intro s _ h; exact h
  | cons e es ih =>
    intro s hn h
    exact ih _ (fun e he => hn e (by simp [he])) (inv_next s e (hn e (by simp)) h)

/-- **As long as every connection to the service succeeds, the thread goes on**: whenever work is waiting, either the first piece is
done in the thread's next step, or the channel it belongs to is connecting to its service and the piece is done as soon as that
connection is there.
C101. Missing from the claim: the same when a connection to a service is refused, which is false (`failed_dial_stops_all`). -/
theorem thread_goes_on_partial (es : List Ev) (hn : NoFail es) (x : Nat × CB) (q : List (Nat × CB)) (hq : (run init es).q = x :: q) :
    (work (run init es)).q.length < (run init es).q.length ∨
    (((run init es).ch x.1).pc = .dialing ∧
      (work (next (run init es) (.dialOk x.1))).q.length < (run init es).q.length) := by
  have h := inv_run es init hn inv_init
  generalize run init es = s at *
  obtain ⟨q', ch⟩ := s
  simp only at hq
  subst hq
  obtain ⟨c, cb⟩ := x
  obtain ⟨hok, hk, ht, hf, hu⟩ := h
  have key : ∀ cb, (cb = .opened ∨ started ⟨(c, cb) :: q, ch⟩ c = true) → (ch c).task = true ∨ (ch c).pc = .dialing ∨ cb = .opened := by
    intro cb hcb
    rcases hcb with h | h
    · exact Or.inr (Or.inr h)
    · simp only [started, decide_eq_true_eq] at h
      have h1 := ht c
      have h2 := hf c
      simp only at h1 h2
      cases hp : (ch c).pc <;> simp_all
  cases cb with
  | opened => left; simp [work]
  | unregister =>
    left
    simp only [work]
    have := List.length_filter_le (fun x : Nat × CB => x.1 != c) q
    simp only [List.length_cons]; omega
  | msg v =>
    rcases key (.msg v) (Or.inr hok.1) with h | h | h
    · left; simp [work, h]
    · right; refine ⟨h, ?_⟩; simp [next, work, h, upd]
    · simp at h
  | closed =>
    rcases key .closed (Or.inr hok.1) with h | h | h
    · left; simp [work, h]
    · right; refine ⟨h, ?_⟩; simp [next, work, h, upd]
    · simp at h

/-! ## What a failed connection does -/

/-- While a channel connects, nothing was announced and nothing is to be unregistered. -/
structure Young (s : St) : Prop where
  task : ∀ c, (s.ch c).pc = .fresh ∨ (s.ch c).pc = .dialing → (s.ch c).task = false
  unreg : ∀ c, (c, CB.unregister) ∈ s.q → (s.ch c).pc ≠ .fresh ∧ (s.ch c).pc ≠ .dialing

theorem young_upd {s : St} (h : Young s) (q : List (Nat × CB)) (c : Nat) (v : Ch) (h1 : v.pc = .fresh ∨ v.pc = .dialing → v.task = false)
    (h2 : ∀ d, d ≠ c → (d, CB.unregister) ∈ q → (d, CB.unregister) ∈ s.q)
    (h3 : (c, CB.unregister) ∈ q → v.pc ≠ .fresh ∧ v.pc ≠ .dialing) : Young ⟨q, upd s.ch c v⟩ := by
  refine ⟨fun d hd => ?_, fun d hd => ?_⟩
  · by_cases hc : d = c
    · subst hc; simp only [upd_self] at hd ⊢; exact h1 hd
    · simp only [upd_ne _ _ hc] at hd ⊢; exact h.task d hd
  · by_cases hc : d = c
    · subst hc; simp only [upd_self]; exact h3 hd
    · simp only [upd_ne _ _ hc]; exact h.unreg d (h2 d hc hd)

theorem young_next (s : St) (e : Ev) (h : Young s) : Young (next s e) := by
  cases e with
  | lib d cb =>
    cases cb with
    | opened =>
      simp only [next]
      split
      · exact h
      · exact young_upd h _ _ _ (h.task d) (fun x _ hx => by simpa using hx) (fun hx => h.unreg d (by simpa using hx))
    | msg v =>
      simp only [next]
      split
      · exact ⟨h.task, fun x hx => h.unreg x (by simpa using hx)⟩
      · exact h
    | closed =>
      simp only [next]
      split
      · exact ⟨h.task, fun x hx => h.unreg x (by simpa using hx)⟩
      · exact h
    | unregister => exact h
  | dialOk d =>
    simp only [next]
    split
    · exact young_upd h _ _ _ (by simp) (fun x _ hx => hx) (by simp)
    · exact h
  | dialFail d =>
    simp only [next]
    split
    · exact young_upd h _ _ _ (by simp) (fun x hne hx => by simpa [hne] using hx) (by simp)
    · exact h
  | finish d =>
    simp only [next]
    split
    · exact young_upd h _ _ _ (by simp) (fun x hne hx => by simpa [hne] using hx) (by simp)
    · exact h
  | thread =>
    obtain ⟨q, ch⟩ := s
    cases q with
    | nil => exact h
    | cons x q =>
      obtain ⟨d, cb⟩ := x
      have ht := h.task d
      have hu := h.unreg d
      simp only at ht hu
      cases cb with
      | opened =>
        simp only [next, work]
        refine young_upd h _ _ _ ?_ (fun x _ hx => by simp [hx]) ?_
        · intro hx; apply ht
          simp only at hx
          split at hx
          · rename_i hf; exact Or.inl hf
          · exact hx
        · intro hx
          have := hu (by simp [hx])
          simp only; rw [if_neg this.1]; exact this
      | msg v =>
        simp only [next, work]
        split
        · exact young_upd h _ _ _ ht (fun x _ hx => by simp [hx]) (fun hx => hu (by simp [hx]))
        · exact h
      | closed =>
        simp only [next, work]
        split
        · exact young_upd h _ _ _ ht (fun x _ hx => by simp [hx]) (fun hx => hu (by simp [hx]))
        · exact h
      | unregister =>
        simp only [next, work]
        exact young_upd h _ _ _ (by simp) (fun x _ hx => by simp [(List.mem_filter.1 hx).1]) (by simp)

theorem young_run (es : List Ev) : ∀ s, Young s → Young (run s es) := by
  induction es with
  | nil => intro s h; exact h
  | cons e es ih => intro s h; exact ih _ (young_next s e h)

theorem young_init : Young init := ⟨fun c _ => rfl, fun c h => by simp [init] at h⟩

/-- The thread will never get past the piece `cb` of channel `c`, whose connection failed; `total` bounds what channel `d` can still
deliver. -/
structure Frozen (c : Nat) (cb : CB) (d : Nat) (total : List Nat) (s : St) : Prop where
  failed : (s.ch c).pc = .failed
  task : (s.ch c).task = false
  waits : (∃ v, cb = .msg v) ∨ cb = .closed
  at_ : ∃ a b t, s.q = a ++ (c, cb) :: b ∧ (c, CB.unregister) ∉ a ∧ (s.ch d).got ++ msgsOf d a ++ t = total

theorem frozen_congr {c d : Nat} {cb : CB} {total : List Nat} {s s' : St} (h : Frozen c cb d total s) (h1 : s'.ch c = s.ch c)
    (h3 : (s'.ch d).got = (s.ch d).got) (h2 : ∃ t, s'.q = s.q ++ t) : Frozen c cb d total s' := by
  obtain ⟨hf, ht, hw, a, b, u, hq, hn, hd⟩ := h
  obtain ⟨t, h2⟩ := h2
  exact ⟨by rw [h1]; exact hf, by rw [h1]; exact ht, hw, a, b ++ t, u, by rw [h2, hq]; simp, hn, by rw [h3]; exact hd⟩

theorem frozen_next (c : Nat) (cb : CB) (x : Nat) (total : List Nat) (s : St) (e : Ev) (h : Frozen c cb x total s) :
    Frozen c cb x total (next s e) := by
  have h0 := h
  have hpc := h.failed
  cases e with
  | lib d cb' =>
    cases cb' with
    | opened =>
      simp only [next]
      split
      · exact h0
      · obtain ⟨hf, ht, hw, a, b, u, hq, hn, hx⟩ := h
        refine ⟨?_, ?_, hw, a, b ++ [(d, .opened)], u, by simp [hq], hn, ?_⟩
        · simp only [upd]; split
          · rename_i hx; subst hx; exact hf
          · exact hf
        · simp only [upd]; split
          · rename_i hx; subst hx; exact ht
          · exact ht
        · simp only; rw [upd_got x (by rfl)]; exact hx
    | msg v =>
      simp only [next]
      split
      · exact frozen_congr h rfl rfl ⟨_, rfl⟩
      · exact h0
    | closed =>
      simp only [next]
      split
      · exact frozen_congr h rfl rfl ⟨_, rfl⟩
      · exact h0
    | unregister => exact h0
  | dialOk d =>
    simp only [next]
    split
    · rename_i hd
      have : c ≠ d := by intro hx; subst hx; simp [hpc] at hd
      exact frozen_congr h (upd_ne _ _ this) (upd_got x rfl) ⟨[], by simp⟩
    · exact h0
  | dialFail d =>
    simp only [next]
    split
    · rename_i hd
      have : c ≠ d := by intro hx; subst hx; simp [hpc] at hd
      exact frozen_congr h (upd_ne _ _ this) (upd_got x rfl) ⟨_, rfl⟩
    · exact h0
  | finish d =>
    simp only [next]
    split
    · rename_i hd
      have : c ≠ d := by intro hx; subst hx; simp [hpc] at hd
      exact frozen_congr h (upd_ne _ _ this) (upd_got x rfl) ⟨_, rfl⟩
    · exact h0
  | thread =>
    obtain ⟨q, ch⟩ := s
    obtain ⟨hf, ht, hw, a, b, u, hq, hn, hx⟩ := h
    simp only at hf ht hq hx
    subst hq
    cases a with
    | nil =>
      rcases hw with ⟨v, hw⟩ | hw
      · subst hw; simp only [next, work, List.nil_append, ht]; exact h0
      · subst hw; simp only [next, work, List.nil_append, ht]; exact h0
    | cons y a =>
      obtain ⟨d, cb'⟩ := y
      have hn' : (c, CB.unregister) ∉ a := fun hx => hn (by simp [hx])
      have keep : ∀ v : Ch, (d = c → v.pc = .failed ∧ v.task = false) →
          (∃ t, (upd ch d v x).got ++ msgsOf x a ++ t = total) → Frozen c cb x total ⟨a ++ (c, cb) :: b, upd ch d v⟩ := by
        intro v hv hg
        obtain ⟨t, hg⟩ := hg
        refine ⟨?_, ?_, hw, a, b, t, rfl, hn', hg⟩
        · simp only [upd]; split
          · rename_i hx; exact (hv hx.symm).1
          · exact hf
        · simp only [upd]; split
          · rename_i hx; exact (hv hx.symm).2
          · exact ht
      cases cb' with
      | opened =>
        simp only [next, work, List.cons_append]
        refine keep _ (fun hx => ?_) ⟨u, ?_⟩
        · subst hx; simp [hf, ht]
        · rw [upd_got x (by rfl), ← hx, msgsOf_cons x a _ (by simp)]
      | msg v =>
        simp only [next, work, List.cons_append]
        split
        · rename_i hd
          refine keep _ (fun hx => ?_) ⟨u, ?_⟩
          · subst hx; exact ⟨hf, ht⟩
          · by_cases hxd : x = d
            · subst hxd; rw [upd_self, ← hx]; simp [msgsOf]
            · rw [upd_ne _ _ hxd, ← hx, msgsOf_cons x a _ (by simp [Ne.symm hxd])]
        · exact h0
      | closed =>
        simp only [next, work, List.cons_append]
        split
        · rename_i hd
          refine keep _ (fun hx => ?_) ⟨u, ?_⟩
          · subst hx; exact ⟨hf, ht⟩
          · rw [upd_got x (by rfl), ← hx, msgsOf_cons x a _ (by simp)]
        · exact h0
      | unregister =>
        have hd : d ≠ c := by intro hx; subst hx; exact hn (by simp)
        simp only [next, work, List.cons_append]
        rw [msgsOf_cons x a _ (by simp)] at hx
        have hg : ∃ t, (ch x).got ++ msgsOf x (a.filter (fun x => x.1 != d)) ++ t = total := by
          by_cases hxd : x = d
          · subst hxd; exact ⟨msgsOf x a ++ u, by rw [msgsOf_filter_self, ← hx]; simp⟩
          · exact ⟨u, by rw [msgsOf_filter_ne _ _ _ hxd, ← hx]⟩
        obtain ⟨t, hg⟩ := hg
        refine ⟨?_, ?_, hw, a.filter (fun x => x.1 != d), b.filter (fun x => x.1 != d), t, ?_, ?_, ?_⟩
        · simp only [upd_ne _ _ (Ne.symm hd)]; exact hf
        · simp only [upd_ne _ _ (Ne.symm hd)]; exact ht
        · have hb : ((c != d) = true) := by simpa using Ne.symm hd
          simp [List.filter_append, List.filter_cons, hb]
        · intro hx; exact hn' (List.mem_filter.1 hx).1
        · simp only; rw [upd_got x (by rfl)]; exact hg

theorem frozen_run (c : Nat) (cb : CB) (d : Nat) (total : List Nat) (es : List Ev) :
    ∀ s, Frozen c cb d total s → Frozen c cb d total (run s es) := by
  induction es with
  | nil => intro s h; exact h
  | cons e es ih => intro s h; exact ih _ (frozen_next c cb d total s e h)

/-- **Violated**: when the connection to the service of channel `c` fails while a message of `c` (or its end) is waiting for the thread,
the thread never gets past that piece of work: whatever happens afterwards it stays in the queue, and **no channel `d` of the thread
ever delivers anything** beyond what was delivered and what was queued before that piece. -/
theorem failed_dial_stops_all (c : Nat) (cb : CB) (hw : (∃ v, cb = .msg v) ∨ cb = .closed) (es rest : List Ev)
    (a b : List (Nat × CB)) (hd : ((run init es).ch c).pc = .dialing) (hq : (run init es).q = a ++ (c, cb) :: b) (d : Nat) :
    (c, cb) ∈ (run init (es ++ .dialFail c :: rest)).q ∧
    ∃ t, ((run init (es ++ .dialFail c :: rest)).ch d).got ++ t = ((run init es).ch d).got ++ msgsOf d a := by
  rw [run_append]
  have hy := young_run es init young_init
  generalize run init es = s at *
  have ht := hy.task c (Or.inr hd)
  have hu : (c, CB.unregister) ∉ s.q := fun hx => (hy.unreg c hx).2 hd
  have hf : Frozen c cb d ((s.ch d).got ++ msgsOf d a) (next s (.dialFail c)) := by
    simp only [next, hd, if_true]
    refine ⟨by simp [upd], by simp [upd, ht], hw, a, b ++ [(c, .unregister)], [], by simp [hq], ?_, ?_⟩
    · intro hx; exact hu (by rw [hq]; simp [hx])
    · simp only; rw [upd_got d (by rfl)]; simp
  have := frozen_run c cb d _ rest _ hf
  obtain ⟨_, _, _, a', b', t, hq', _, hg⟩ := this
  simp only [run]
  refine ⟨by rw [hq']; simp, msgsOf d a' ++ t, by rw [← hg]; simp⟩

/-- It happens: channel 1 is exchanging messages; channel 2 opens, its first message arrives and its connection fails. The message that
channel 1 receives afterwards is not delivered. -/
theorem failed_dial_reachable : ∃ es : List Ev, ((run init es).ch 2).pc = .dialing ∧ ((run init es).ch 1).got = [10] ∧
    (run init es).q = [] ++ (2, .msg 20) :: [(1, .msg 11)] :=
  ⟨[.lib 1 .opened, .thread, .dialOk 1, .lib 1 (.msg 10), .thread, .lib 2 .opened, .thread, .lib 2 (.msg 20), .lib 1 (.msg 11)],
    by decide, by decide, by decide⟩

example : ∀ rest : List Ev, ∃ t, ((run init (([.lib 1 .opened, .thread, .dialOk 1, .lib 1 (.msg 10), .thread, .lib 2 .opened, .thread,
    .lib 2 (.msg 20), .lib 1 (.msg 11)] : List Ev) ++ .dialFail 2 :: rest)).ch 1).got ++ t = [10] :=
  fun rest => (failed_dial_stops_all 2 (.msg 20) (Or.inl ⟨_, rfl⟩) _ rest [] _ (by decide) rfl 1).2

/-- A failing connection does no harm when nothing of the channel is waiting. -/
example : ((run init [.lib 1 .opened, .thread, .dialOk 1, .lib 2 .opened, .thread, .dialFail 2, .thread, .lib 2 (.msg 20),
    .lib 1 (.msg 11), .thread]).ch 1).got = [11] := by decide

example : NoFail [.lib 1 .opened, .thread, .lib 1 (.msg 10), .dialOk 1, .thread] := by intro e he c; simp at he; rcases he with h | h | h | h | h <;> subst h <;> simp
example : ((run init [.lib 1 .opened, .thread, .lib 1 (.msg 10), .dialOk 1, .thread]).ch 1).got = [10] := by decide

/-! ## The end of a channel -/

/-- Channel `c` was closed by the visitor, and that is on its way to the service or has reached it, or the channel was given up. -/
def Shutting (c : Nat) (s : St) : Prop := (s.ch c).shut = true ∨ (c, CB.closed) ∈ s.q ∨ (s.ch c).pc = .gone

theorem shutting_congr {c d : Nat} {s s' : St} (v : Ch) (h : Shutting c s) (hch : s'.ch = upd s.ch d v)
    (hv : v.shut = (s.ch d).shut ∧ (v.pc = .gone ↔ (s.ch d).pc = .gone)) (hq : ∀ x ∈ s.q, x ∈ s'.q ∨ x.2 ≠ .closed) : Shutting c s' := by
  rcases h with h | h | h
  · left; rw [hch]
    by_cases e : c = d
    · subst e; rw [upd_self, hv.1]; exact h
    · rw [upd_ne _ _ e]; exact h
  · rcases hq _ h with h | h
    · exact .inr (.inl h)
    · exact absurd rfl h
  · right; right; rw [hch]
    by_cases e : c = d
    · subst e; rw [upd_self]; exact hv.2.mpr h
    · rw [upd_ne _ _ e]; exact h

theorem shutting_next (c : Nat) (s : St) (e : Ev) (h : Shutting c s) : Shutting c (next s e) := by
  cases e with
  | lib d cb =>
    cases cb with
    | opened =>
      simp only [next]; split
      · exact h
      · exact shutting_congr _ h rfl ⟨rfl, Iff.rfl⟩ (fun x hx => .inl (List.mem_append_left _ hx))
    | msg v =>
      simp only [next]; split
      · rcases h with h | h | h
        · exact .inl h
        · exact .inr (.inl (List.mem_append_left _ h))
        · exact .inr (.inr h)
      · exact h
    | closed =>
      simp only [next]; split
      · rcases h with h | h | h
        · exact .inl h
        · exact .inr (.inl (List.mem_append_left _ h))
        · exact .inr (.inr h)
      · exact h
    | unregister => exact h
  | dialOk d =>
    simp only [next]; split
    · rename_i hd
      exact shutting_congr _ h rfl ⟨rfl, by simp [hd]⟩ (fun x hx => .inl hx)
    · exact h
  | dialFail d =>
    simp only [next]; split
    · rename_i hd
      exact shutting_congr _ h rfl ⟨rfl, by simp [hd]⟩ (fun x hx => .inl (List.mem_append_left _ hx))
    · exact h
  | finish d =>
    simp only [next]; split
    · rename_i hd
      exact shutting_congr _ h rfl ⟨rfl, by simp [hd]⟩ (fun x hx => .inl (List.mem_append_left _ hx))
    · exact h
  | thread =>
    obtain ⟨q, ch⟩ := s
    simp only [next]
    cases q with
    | nil => exact h
    | cons x q =>
      obtain ⟨d, cb⟩ := x
      cases cb with
      | opened =>
        refine shutting_congr (s := ⟨(d, .opened) :: q, ch⟩) { ch d with pc := if (ch d).pc = .fresh then .dialing else (ch d).pc } h rfl
          ⟨rfl, ?_⟩ (fun x hx => ?_)
        · dsimp only; split
          · rename_i hf; simp [hf]
          · exact Iff.rfl
        · rcases List.mem_cons.mp hx with rfl | hx
          · right; simp
          · exact .inl hx
      | msg v =>
        simp only [work]; split
        · refine shutting_congr (s := ⟨(d, .msg v) :: q, ch⟩) { ch d with got := (ch d).got ++ [v] } h rfl ⟨rfl, Iff.rfl⟩ (fun x hx => ?_)
          rcases List.mem_cons.mp hx with rfl | hx
          · right; simp
          · exact .inl hx
        · exact h
      | closed =>
        simp only [work]; split
        · by_cases e : c = d
          · subst e; left; simp only; rw [upd_self]
          · rcases h with h | h | h
            · left; simp only; rw [upd_ne _ _ e]; exact h
            · right; left
              rcases List.mem_cons.mp h with h | h
              · simp only [Prod.mk.injEq] at h; exact absurd h.1 e
              · exact h
            · right; right; simp only; rw [upd_ne _ _ e]; exact h
        · exact h
      | unregister =>
        simp only [work]
        by_cases e : c = d
        · subst e; right; right; simp only; rw [upd_self]
        · rcases h with h | h | h
          · left; simp only; rw [upd_ne _ _ e]; exact h
          · right; left
            rcases List.mem_cons.mp h with h | h
            · simp only [Prod.mk.injEq] at h; exact absurd h.1 e
            · exact List.mem_filter.mpr ⟨h, by simp [e]⟩
          · right; right; simp only; rw [upd_ne _ _ e]; exact h

/-- **C101, the end of a channel reaches the service**: once the library has reported that an announced channel is closed, then whatever
else happens, the thread has closed the connection to the service, or that is still among its work, or the channel has been given up
(its exchange is over or its connection failed). -/
theorem close_reaches_service (c : Nat) (pre post : List Ev) (hk : ((run init pre).ch c).known = true) :
    Shutting c (run init (pre ++ .lib c .closed :: post)) := by
  have : ∀ (es : List Ev) s, Shutting c s → Shutting c (run s es) := by
    intro es
    induction es with
    | nil => intro s h; exact h
    | cons e es ih => intro s h; exact ih _ (shutting_next c s e h)
  rw [run_append]
  refine this post _ ?_
  by_cases hg : ((run init pre).ch c).pc = .gone
  · simp only [next]
    rw [if_neg (by simp [hg])]
    exact .inr (.inr hg)
  · simp only [next]
    rw [if_pos ⟨hk, hg⟩]
    exact .inr (.inl (by simp))

/-- The connection to the service of a channel is closed from this side only if the channel was closed. -/
theorem shut_only_if_closed (c : Nat) (es : List Ev) : ((run init es).ch c).shut = true → Ev.lib c .closed ∈ es := by
  have key : ∀ (es : List Ev) (s : St), ((s.ch c).shut = true → False) → ((c, CB.closed) ∈ s.q → False) → Ev.lib c .closed ∉ es →
      ((run s es).ch c).shut = true → False := by
    intro es
    induction es with
    | nil => intro s h1 _ _ h; exact h1 h
    | cons e es ih =>
      intro s h1 h2 hn h
      have hn' : e ≠ .lib c .closed ∧ Ev.lib c .closed ∉ es := by
        constructor
        · intro he; exact hn (by rw [he]; exact List.mem_cons_self)
        · intro he; exact hn (List.mem_cons_of_mem _ he)
      have hu : ∀ d v, v.shut = (s.ch d).shut → ((upd s.ch d v c).shut = true → False) := by
        intro d v hv
        by_cases ed : c = d
        · subst ed; rw [upd_self, hv]; exact h1
        · rw [upd_ne _ _ ed]; exact h1
      have hq : ∀ x, x ≠ (c, CB.closed) → ((c, CB.closed) ∈ s.q ++ [x] → False) := by
        intro x hx hm
        rcases List.mem_append.mp hm with hm | hm
        · exact h2 hm
        · simp only [List.mem_singleton] at hm; exact hx hm.symm
      refine ih (next s e) ?_ ?_ hn'.2 h
      · cases e with
        | lib d cb => cases cb <;> simp only [next] <;> (try split) <;> first | exact h1 | exact hu _ _ rfl
        | dialOk d => simp only [next]; split; exact hu _ _ rfl; exact h1
        | dialFail d => simp only [next]; split; exact hu _ _ rfl; exact h1
        | finish d => simp only [next]; split; exact hu _ _ rfl; exact h1
        | thread =>
          obtain ⟨q, ch⟩ := s
          cases q with
          | nil => exact h1
          | cons x q =>
            obtain ⟨d, cb⟩ := x
            cases cb with
            | opened => exact hu _ _ rfl
            | msg v => simp only [next, work]; split; exact hu _ _ rfl; exact h1
            | unregister => exact hu _ _ rfl
            | closed =>
              have ed : c ≠ d := by rintro rfl; exact h2 List.mem_cons_self
              simp only [next, work]; split
              · simp only; rw [upd_ne _ _ ed]; exact h1
              · exact h1
      · cases e with
        | lib d cb =>
          cases cb with
          | opened => simp only [next]; split; exact h2; exact hq _ (by simp)
          | msg v => simp only [next]; split; exact hq _ (by simp); exact h2
          | closed =>
            simp only [next]; split
            · refine hq _ ?_
              intro he
              simp only [Prod.mk.injEq] at he
              exact hn'.1 (by rw [he.1])
            · exact h2
          | unregister => exact h2
        | dialOk d => simp only [next]; split <;> exact h2
        | dialFail d => simp only [next]; split; exact hq _ (by simp); exact h2
        | finish d => simp only [next]; split; exact hq _ (by simp); exact h2
        | thread =>
          obtain ⟨q, ch⟩ := s
          cases q with
          | nil => exact h2
          | cons x q =>
            obtain ⟨d, cb⟩ := x
            have hq' : (c, CB.closed) ∈ q → False := fun hm => h2 (List.mem_cons_of_mem _ hm)
            cases cb with
            | opened => exact hq'
            | msg v => simp only [next, work]; split; exact hq'; exact h2
            | unregister => exact fun hm => hq' (List.mem_filter.mp hm).1
            | closed => simp only [next, work]; split; exact hq'; exact h2
  intro h
  by_cases hm : Ev.lib c .closed ∈ es
  · exact hm
  · exact (key es init (by simp [init]) (by simp [init]) hm h).elim

/-- A channel that is closed while the service answers, behind a message: the thread writes the message, then closes. -/
example : let s := run init [.lib 1 .opened, .thread, .dialOk 1, .lib 1 (.msg 10), .lib 1 .closed, .thread]
    (s.ch 1).got = [10] ∧ (s.ch 1).shut = false ∧ s.q = [(1, .closed)] ∧ ((next s .thread).ch 1).shut = true := by decide

end Verif.P2P.Callback
