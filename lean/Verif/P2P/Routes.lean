import Verif.Config.Services
import Verif.Util.RotateLogs
set_option linter.unusedSimpArgs false
set_option linter.unusedVariables false
/-!
# C59: which local service a P2P data channel reaches
(libcs/client/peerproc.go:118-133, libcs/client/signal.go:71-100, bin/src/peer/conn.rs:177-205)

The client hands two routing tables to the process that serves a P2P visitor; the process looks the label of each data
channel up in them. The tables are built from the services of the configuration *file*; the services the client runs
(file and command line, defaults filled in, ports announced by the server) are another list.
-/
namespace Verif.P2P.Routes
open Verif Verif.Config.Services

/-- A service and the TCP port that the server announced for it (libcs/client/config.go:168-177 `remoteTCPPort`, not
read from the file, so 0 at first). -/
structure Run where
  svc : Svc
  remote : Nat := 0
deriving DecidableEq, Repr

/-- What a client holds: the services of its configuration file, and those it runs. -/
structure Cli where
  file : List Run
  running : List Run
deriving DecidableEq, Repr

/-- A service of the file after `parseServices`: the list is copied (libcs/client/client.go:818, `append` to a slice
without spare capacity), but the copies point to the same URLs, so a default port is added here too
(libcs/client/client.go:844-852). -/
def fileRun (s : Svc) : Run := ⟨{ s with url := s.url.map fillUrl }, 0⟩

/-- libcs/client/client.go:418-460, 751-768 `Start`. -/
def start (U : Bytes → Option URL) (c : Cfg) : Option Cli :=
  match parseServices U c with
  | .ok r => some ⟨c.services.map fileRun, r.map (⟨·, 0⟩)⟩
  | _ => none

/-- What happens to a client afterwards. -/
inductive Ev where
  /-- the server announces the TCP port it opened for the `i`-th service (libcs/client/signal.go:71-100) -/
  | info (i port : Nat)
  /-- the services are reloaded from a changed configuration (libcs/client/client.go:903-971) -/
  | reload (c : Cfg)

def setRemote (l : List Run) (i port : Nat) : List Run :=
  match l[i]? with
  | some r => l.set i { r with remote := port }
  | none => l

def step (U : Bytes → Option URL) (s : Cli) : Ev → Cli
  | .info i port => { s with running := setRemote s.running i port }
  | .reload c => (start U c).getD s

/-- A routing table (a Go map, marshalled to JSON and read as a Rust `HashMap`). -/
abbrev Tbl := Bytes → Option Svc

def Tbl.put (t : Tbl) (k : Bytes) (v : Svc) : Tbl := fun x => if x = k then some v else t x

def at_ : Bytes := [64]

/-- libcs/client/peerproc.go:121-133: the loop over the services from the `i`-th on. -/
def tables : Nat → List Run → Tbl × Tbl → Tbl × Tbl
  | _, [], t => t
  | i, s :: ss, (h, tc) =>
    if s.svc.pre.length > 0 then
      let h := if i = 0 then Tbl.put h at_ s.svc else h
      tables (i + 1) ss (Tbl.put h s.svc.pre s.svc, tc)
    else
      tables (i + 1) ss (h, Tbl.put tc (Util.RotateLogs.dec s.remote) s.svc)

def routes (s : Cli) : Tbl × Tbl := tables 0 s.file (fun _ => none, fun _ => none)

/-- `label.split_once('/')`: what is before the first slash, if there is one. -/
def beforeSlash : Bytes → Option Bytes
  | [] => none
  | b :: bs => if b = 47 then some [] else (beforeSlash bs).map (b :: ·)

/-- bin/src/peer/conn.rs:183-205. `t.get(0..1)` is `None` for an empty string and for one that begins with a character
of several bytes (labels are UTF-8, so: whose first byte is 128 or more). -/
def lookup (r : Tbl × Tbl) (label : Bytes) : Option Svc :=
  match beforeSlash label with
  | none => r.1 at_
  | some [] => r.1 at_
  | some (c :: rest) =>
    if 128 ≤ c.toNat then r.1 at_
    else if c = 64 ∧ rest ≠ [] then r.1 rest
    else if c = 58 ∧ rest ≠ [] then r.2 rest
    else r.1 (c :: rest)

/-! ## Specification -/

/-- The service a client runs under a host prefix, or on a TCP port of the server: what a visitor of the server
reaches at that address. -/
inductive Addr where
  | pre (p : Bytes)
  | port (n : Nat)

def serves (s : Cli) : Addr → Svc → Prop
  | .pre p, x => ∃ r ∈ s.running, r.svc = x ∧ x.pre = p ∧ p ≠ []
  | .port n, x => ∃ r ∈ s.running, r.svc = x ∧ r.remote = n ∧ n ≠ 0

/-- The label a P2P visitor uses for an address. -/
def label : Addr → Bytes → Bytes
  | .pre p, rest => p ++ 47 :: rest
  | .port n, rest => 58 :: (Util.RotateLogs.dec n ++ 47 :: rest)

/-- An execution: a client that started, then any events. -/
def Reach (U : Bytes → Option URL) (s : Cli) : Prop :=
  ∃ c s0 es, start U c = some s0 ∧ s = List.foldl (step U) s0 es

/-! ## Lemmas -/

theorem beforeSlash_append (p rest : Bytes) (h : (47 : UInt8) ∉ p) : beforeSlash (p ++ 47 :: rest) = some p := by
  induction p with
  | nil => rfl
  | cons b bs ih =>
    simp only [List.mem_cons, not_or] at h
    simp only [List.cons_append, beforeSlash]
    rw [if_neg (fun e => h.1 e.symm), ih h.2]; rfl

theorem digit_ne (n : Nat) : Util.RotateLogs.digit n ≠ 47 ∧ Util.RotateLogs.digit n ≠ 64 := by
  have := Util.RotateLogs.digit_toNat n
  constructor <;> (intro e; rw [e] at this; simp at this; omega)

theorem decF_no_slash : ∀ f n, (47 : UInt8) ∉ Util.RotateLogs.decF f n := by
  intro f
  induction f with
  | zero => intro n; simp [Util.RotateLogs.decF]
  | succ f ih =>
    intro n
    unfold Util.RotateLogs.decF
    split
    · simp; exact fun e => (digit_ne n).1 e.symm
    · simp only [List.mem_append, not_or, List.mem_singleton]
      exact ⟨ih _, fun e => (digit_ne n).1 e.symm⟩

theorem dec_ne_nil (n : Nat) : Util.RotateLogs.dec n ≠ [] := by
  unfold Util.RotateLogs.dec Util.RotateLogs.decF
  split <;> simp

theorem dec_inj {a b : Nat} (h : Util.RotateLogs.dec a = Util.RotateLogs.dec b) : a = b := by
  rw [← Util.RotateLogs.valOf_dec a, ← Util.RotateLogs.valOf_dec b, h]

/-- Where the entries of the tables come from. -/
theorem tables_sound : ∀ (l : List Run) (i : Nat) (t : Tbl × Tbl),
    (∀ k x, (tables i l t).1 k = some x → t.1 k = some x ∨
      ∃ r ∈ l, r.svc = x ∧ x.pre ≠ [] ∧ (k = x.pre ∨ k = at_)) ∧
    (∀ k x, (tables i l t).2 k = some x → t.2 k = some x ∨
      ∃ r ∈ l, r.svc = x ∧ x.pre = [] ∧ k = Util.RotateLogs.dec r.remote) := by
  intro l
  induction l with
  | nil => intro i t; exact ⟨fun k x h => .inl h, fun k x h => .inl h⟩
  | cons a l ih =>
    intro i t
    obtain ⟨h, tc⟩ := t
    unfold tables
    split
    · rename_i hp
      have hp' : a.svc.pre ≠ [] := fun e => by rw [e] at hp; simp at hp
      obtain ⟨h1, h2⟩ := ih (i + 1) (Tbl.put (if i = 0 then Tbl.put h at_ a.svc else h) a.svc.pre a.svc, tc)
      refine ⟨fun k x hx => ?_, fun k x hx => ?_⟩
      · rcases h1 k x hx with hh | ⟨r, hr, h'⟩
        · simp only [Tbl.put] at hh
          split at hh
          · rename_i hk
            cases hh
            exact .inr ⟨a, List.mem_cons_self, rfl, hp', .inl hk⟩
          · split at hh
            · simp only [Tbl.put] at hh
              split at hh
              · rename_i hk
                cases hh
                exact .inr ⟨a, List.mem_cons_self, rfl, hp', .inr hk⟩
              · exact .inl hh
            · exact .inl hh
        · exact .inr ⟨r, List.mem_cons_of_mem _ hr, h'⟩
      · rcases h2 k x hx with hh | ⟨r, hr, h'⟩
        · exact .inl hh
        · exact .inr ⟨r, List.mem_cons_of_mem _ hr, h'⟩
    · rename_i hp
      have hp' : a.svc.pre = [] := List.length_eq_zero_iff.mp (by omega)
      obtain ⟨h1, h2⟩ := ih (i + 1) (h, Tbl.put tc (Util.RotateLogs.dec a.remote) a.svc)
      refine ⟨fun k x hx => ?_, fun k x hx => ?_⟩
      · rcases h1 k x hx with hh | ⟨r, hr, h'⟩
        · exact .inl hh
        · exact .inr ⟨r, List.mem_cons_of_mem _ hr, h'⟩
      · rcases h2 k x hx with hh | ⟨r, hr, h'⟩
        · simp only [Tbl.put] at hh
          split at hh
          · rename_i hk
            cases hh
            exact .inr ⟨a, List.mem_cons_self, rfl, hp', hk⟩
          · exact .inl hh
        · exact .inr ⟨r, List.mem_cons_of_mem _ hr, h'⟩

/-- A prefix nobody else in the list has keeps its entry. -/
theorem tables_keep : ∀ (l : List Run) (i : Nat) (t : Tbl × Tbl) (k : Bytes) (x : Svc), 0 < i →
    t.1 k = some x → (∀ r ∈ l, r.svc.pre ≠ k ∨ r.svc = x) → (tables i l t).1 k = some x := by
  intro l
  induction l with
  | nil => intro i t k x _ h _; exact h
  | cons a l ih =>
    intro i t k x hi h hn
    obtain ⟨h', tc⟩ := t
    unfold tables
    split
    · refine ih (i + 1) _ k x (by omega) ?_ (fun r hr => hn r (List.mem_cons_of_mem _ hr))
      have : i ≠ 0 := by omega
      simp only [Tbl.put, if_neg this]
      split
      · rename_i e
        rcases hn a List.mem_cons_self with h1 | h1
        · exact absurd e.symm h1
        · rw [h1]
      · exact h
    · exact ih (i + 1) _ k x (by omega) h (fun r hr => hn r (List.mem_cons_of_mem _ hr))

/-- A service with a prefix of its own is in the table under that prefix. -/
theorem tables_has : ∀ (l : List Run) (i : Nat) (t : Tbl × Tbl) (x : Run), x ∈ l → x.svc.pre ≠ [] →
    (∀ r ∈ l, r.svc.pre = x.svc.pre → r.svc = x.svc) → (tables i l t).1 x.svc.pre = some x.svc := by
  intro l
  induction l with
  | nil => intro i t x h; cases h
  | cons a l ih =>
    intro i t x hx hp hu
    by_cases hxl : x ∈ l
    · have hu' : ∀ r ∈ l, r.svc.pre = x.svc.pre → r.svc = x.svc := fun r hr => hu r (List.mem_cons_of_mem _ hr)
      obtain ⟨h, tc⟩ := t
      unfold tables
      split
      · exact ih _ _ x hxl hp hu'
      · exact ih _ _ x hxl hp hu'
    · have hxa : x = a := (List.mem_cons.mp hx).resolve_right hxl
      subst hxa
      obtain ⟨h, tc⟩ := t
      unfold tables
      have : x.svc.pre.length > 0 := by
        cases hc : x.svc.pre with
        | nil => exact absurd hc hp
        | cons _ _ => simp
      rw [if_pos this]
      refine tables_keep _ _ _ _ _ (by omega) ?_ ?_
      · simp [Tbl.put]
      · intro r hr
        by_cases e : r.svc.pre = x.svc.pre
        · exact .inr (hu r (List.mem_cons_of_mem _ hr) e)
        · exact .inl e

/-! ### The file services never learn their ports -/

theorem start_file {U : Bytes → Option URL} {c : Cfg} {s : Cli} (h : start U c = some s) :
    s.file = c.services.map fileRun ∧ ∃ r, parseServices U c = .ok r ∧ s.running = r.map (⟨·, 0⟩) := by
  unfold start at h
  split at h
  · rename_i r hr
    cases h
    exact ⟨rfl, r, hr, rfl⟩
  · cases h

theorem file_ports_zero {U : Bytes → Option URL} {s : Cli} (h : Reach U s) : ∀ r ∈ s.file, r.remote = 0 := by
  obtain ⟨c, s0, es, h0, rfl⟩ := h
  have base : ∀ {c : Cfg} {s : Cli}, start U c = some s → ∀ r ∈ s.file, r.remote = 0 := by
    intro c s h r hr
    rw [(start_file h).1] at hr
    obtain ⟨x, _, rfl⟩ := List.mem_map.mp hr
    rfl
  have hb := base h0
  clear h0
  induction es generalizing s0 with
  | nil => exact hb
  | cons e es ih =>
    refine ih (step U s0 e) ?_
    cases e with
    | info i p => exact hb
    | reload c =>
      simp only [step]
      cases hs : start U c with
      | none => exact hb
      | some s' => exact base hs

/-- The services of the file are among those of the configuration in force, and that configuration was accepted: its
prefixes are distinct. -/
theorem file_of_accepted {U : Bytes → Option URL} {s : Cli} (h : Reach U s) :
    ∃ c r, parseServices U c = .ok r ∧ s.file = c.services.map fileRun ∧ s.running.map (·.svc) = r := by
  obtain ⟨c, s0, es, h0, rfl⟩ := h
  have base : ∀ {c : Cfg} {s : Cli}, start U c = some s →
      ∃ c r, parseServices U c = .ok r ∧ s.file = c.services.map fileRun ∧ s.running.map (·.svc) = r := by
    intro c s h
    obtain ⟨h1, r, h2, h3⟩ := start_file h
    refine ⟨c, r, h2, h1, ?_⟩
    rw [h3, List.map_map]
    exact List.map_id _
  have hb := base h0
  clear h0
  induction es generalizing s0 with
  | nil => exact hb
  | cons e es ih =>
    refine ih (step U s0 e) ?_
    cases e with
    | info i p =>
      obtain ⟨c, r, h1, h2, h3⟩ := hb
      refine ⟨c, r, h1, h2, ?_⟩
      rw [← h3]
      simp only [step, setRemote]
      split
      · rename_i x hx
        rw [List.map_set]
        apply List.ext_getElem?
        intro j
        rw [List.getElem?_set]
        split
        · rename_i e; subst e
          simp [hx]
          have := (List.getElem?_eq_some_iff.mp hx).1
          exact this
        · rfl
      · rfl
    | reload c =>
      simp only [step]
      cases hs : start U c with
      | none => exact hb
      | some s' => exact base hs

/-- Prefixes of the services that run are distinct. -/
theorem running_unique {U : Bytes → Option URL} {s : Cli} (h : Reach U s) {a b : Run} (ha : a ∈ s.running)
    (hb : b ∈ s.running) (hp : a.svc.pre ≠ []) (e : a.svc.pre = b.svc.pre) : a.svc = b.svc := by
  obtain ⟨c, r, h1, _, h3⟩ := file_of_accepted h
  have hpw := (accepted_services U c r h1).2
  have hma : a.svc ∈ r := h3 ▸ List.mem_map_of_mem ha
  have hmb : b.svc ∈ r := h3 ▸ List.mem_map_of_mem hb
  by_cases hne : a.svc = b.svc
  · exact hne
  · exfalso
    obtain ⟨i, hi, ei⟩ := List.getElem_of_mem hma
    obtain ⟨j, hj, ej⟩ := List.getElem_of_mem hmb
    have hpw := List.pairwise_iff_getElem.mp hpw
    rcases Nat.lt_trichotomy i j with hl | hl | hl
    · have := hpw i j hi hj hl (by rw [ei]; exact hp)
      rw [ei, ej] at this; exact this e
    · subst hl; rw [ei] at ej; exact hne ej
    · have := hpw j i hj hi hl (by rw [ej]; exact e ▸ hp)
      rw [ei, ej] at this; exact this e.symm

/-- A service of the file runs, under its own prefix if it has one, with the same local URL. -/
theorem file_runs {U : Bytes → Option URL} {s : Cli} (h : Reach U s) {f : Run} (hf : f ∈ s.file) :
    ∃ r ∈ s.running, r.svc.url = f.svc.url ∧ (f.svc.pre ≠ [] → r.svc.pre = f.svc.pre) := by
  obtain ⟨c, r, h1, h2, h3⟩ := file_of_accepted h
  rw [h2] at hf
  obtain ⟨x, hx, rfl⟩ := List.mem_map.mp hf
  obtain ⟨ls, _, _, _, _, h4⟩ := (accepted_iff U c r).1 h1
  have : filled c.id x ∈ s.running.map (·.svc) := by
    rw [h3, h4]
    exact List.mem_map_of_mem (List.mem_append_right _ hx)
  obtain ⟨y, hy, e⟩ := List.mem_map.mp this
  refine ⟨y, hy, by rw [e]; rfl, ?_⟩
  intro hp
  rw [e]
  exact (defaults_only_unset c.id x).2.2.1 hp

/-! ## Theorems -/

/-- C59, safety: whatever label a visitor gives a channel, it reaches nothing or the local URL of a service that the
client runs. -/
theorem reaches_only_services (U : Bytes → Option URL) (s : Cli) (h : Reach U s) (l : Bytes) (x : Svc)
    (hl : lookup (routes s) l = some x) : ∃ r ∈ s.running, r.svc.url = x.url := by
  have key : ∀ k y, ((routes s).1 k = some y ∨ (routes s).2 k = some y) → ∃ f ∈ s.file, f.svc = y := by
    intro k y hy
    obtain ⟨h1, h2⟩ := tables_sound s.file 0 (fun _ => none, fun _ => none)
    rcases hy with hy | hy
    · rcases h1 k y hy with h' | ⟨r, hr, e, _⟩
      · cases h'
      · exact ⟨r, hr, e⟩
    · rcases h2 k y hy with h' | ⟨r, hr, e, _⟩
      · cases h'
      · exact ⟨r, hr, e⟩
  have : ∃ k, (routes s).1 k = some x ∨ (routes s).2 k = some x := by
    unfold lookup at hl
    split at hl
    · exact ⟨_, .inl hl⟩
    · exact ⟨_, .inl hl⟩
    · split at hl
      · exact ⟨_, .inl hl⟩
      · split at hl
        · exact ⟨_, .inl hl⟩
        · split at hl
          · exact ⟨_, .inr hl⟩
          · exact ⟨_, .inl hl⟩
  obtain ⟨k, hk⟩ := this
  obtain ⟨f, hf, rfl⟩ := key k x hk
  obtain ⟨r, hr, e, _⟩ := file_runs h hf
  exact ⟨r, hr, e⟩

/-- The table entry of a prefix. -/
theorem entry (U : Bytes → Option URL) (s : Cli) (h : Reach U s) (f : Run) (hf : f ∈ s.file)
    (hp : f.svc.pre ≠ []) (x : Svc) (hx : serves s (.pre f.svc.pre) x) :
    ∃ y, (routes s).1 f.svc.pre = some y ∧ y.url = x.url := by
  have hu : ∀ a ∈ s.file, ∀ b ∈ s.file, a.svc.pre ≠ [] → a.svc.pre = b.svc.pre → a.svc.url = b.svc.url := by
    intro a ha b hb hpa e
    obtain ⟨ra, hra, ea, epa⟩ := file_runs h ha
    obtain ⟨rb, hrb, eb, epb⟩ := file_runs h hb
    have := running_unique h hra hrb (by rw [epa hpa]; exact hpa) (by rw [epa hpa, epb (e ▸ hpa), e])
    rw [← ea, ← eb, this]
  -- the last file service with that prefix is in the table
  have hlast : ∀ (l : List Run) (i : Nat) (t : Tbl × Tbl), (∃ r ∈ l, r.svc.pre = f.svc.pre) →
      ∃ r ∈ l, r.svc.pre = f.svc.pre ∧ (tables i l t).1 f.svc.pre = some r.svc := by
    intro l
    induction l with
    | nil => rintro i t ⟨r, hr, _⟩; cases hr
    | cons a l ih =>
      rintro i t ⟨r, hr, e⟩
      by_cases hl : ∃ r ∈ l, r.svc.pre = f.svc.pre
      · obtain ⟨h', tc⟩ := t
        unfold tables
        split
        · obtain ⟨r, hr, h1, h2⟩ := ih (i + 1) _ hl; exact ⟨r, List.mem_cons_of_mem _ hr, h1, h2⟩
        · obtain ⟨r, hr, h1, h2⟩ := ih (i + 1) _ hl; exact ⟨r, List.mem_cons_of_mem _ hr, h1, h2⟩
      · have hra : r = a := (List.mem_cons.mp hr).resolve_right (fun hm => hl ⟨r, hm, e⟩)
        subst hra
        obtain ⟨h', tc⟩ := t
        refine ⟨r, List.mem_cons_self, e, ?_⟩
        unfold tables
        have : r.svc.pre.length > 0 := by
          rw [e]
          cases hc : f.svc.pre with
          | nil => exact absurd hc hp
          | cons _ _ => simp
        rw [if_pos this]
        refine tables_keep _ _ _ _ _ (by omega) ?_ ?_
        · simp [Tbl.put, e]
        · intro q hq; exact .inl (fun e' => hl ⟨q, hq, e'⟩)
  obtain ⟨r, hr, hre, htab⟩ := hlast s.file 0 (fun _ => none, fun _ => none) ⟨f, hf, rfl⟩
  refine ⟨r.svc, htab, ?_⟩
  obtain ⟨q, hq, eq, epq⟩ := file_runs h hr
  obtain ⟨q', hq', rfl, e', _⟩ := hx
  have hrp : r.svc.pre ≠ [] := hre ▸ hp
  have := running_unique h hq hq' (by rw [epq hrp]; exact hrp) (by rw [epq hrp, hre, e'])
  rw [← eq, this]

/-- C59: a channel labelled `<prefix>/…` reaches the local URL that the client serves under that prefix, if the prefix
is written in the configuration file, has no slash, begins with an ASCII character, and is not a longer string that
begins with `@` or `:`. Missing: every other service (see the theorems below). -/
theorem prefix_reached_partial (U : Bytes → Option URL) (s : Cli) (h : Reach U s) (c : UInt8) (p rest : Bytes)
    (hf : ∃ f ∈ s.file, f.svc.pre = c :: p) (hs : (47 : UInt8) ∉ c :: p) (hc : c.toNat < 128)
    (hat : p ≠ [] → c ≠ 64 ∧ c ≠ 58) (x : Svc) (hx : serves s (.pre (c :: p)) x) :
    ∃ y, lookup (routes s) (label (.pre (c :: p)) rest) = some y ∧ y.url = x.url := by
  obtain ⟨f, hf, e⟩ := hf
  obtain ⟨y, hy, hyu⟩ := entry U s h f hf (by rw [e]; simp) x (e ▸ hx)
  refine ⟨y, ?_, hyu⟩
  simp only [label, lookup, beforeSlash_append _ _ hs]
  rw [if_neg (by omega), if_neg (fun hh => (hat hh.2).1 hh.1), if_neg (fun hh => (hat hh.2).2 hh.1), ← e]
  exact hy

/-- … and `@<prefix>/…` reaches it whatever characters the prefix has. -/
theorem at_prefix_reached_partial (U : Bytes → Option URL) (s : Cli) (h : Reach U s) (p rest : Bytes) (hp : p ≠ [])
    (hf : ∃ f ∈ s.file, f.svc.pre = p) (hs : (47 : UInt8) ∉ p) (x : Svc) (hx : serves s (.pre p) x) :
    ∃ y, lookup (routes s) (64 :: (p ++ 47 :: rest)) = some y ∧ y.url = x.url := by
  obtain ⟨f, hf, e⟩ := hf
  obtain ⟨y, hy, hyu⟩ := entry U s h f hf (by rw [e]; exact hp) x (e ▸ hx)
  refine ⟨y, ?_, hyu⟩
  have := beforeSlash_append (64 :: p) rest (by
    simp only [List.mem_cons, not_or]; exact ⟨by decide, hs⟩)
  simp only [List.cons_append] at this
  simp only [lookup, this]
  rw [if_neg (by decide), if_pos ⟨trivial, hp⟩, ← e]
  exact hy

/-- C59 is false for TCP services: no P2P channel reaches one by the port that the server opened for it, in any
execution. -/
theorem no_tcp_service_reached (U : Bytes → Option URL) (s : Cli) (h : Reach U s) (n : Nat) (hn : n ≠ 0)
    (rest : Bytes) : lookup (routes s) (label (.port n) rest) = none := by
  have hb := beforeSlash_append (58 :: Util.RotateLogs.dec n) rest (by
    simp only [List.mem_cons, not_or]
    exact ⟨by decide, decF_no_slash _ _⟩)
  simp only [List.cons_append] at hb
  simp only [label, lookup, hb]
  rw [if_neg (by decide), if_neg (by intro e; exact absurd e.1 (by decide)), if_pos ⟨trivial, dec_ne_nil n⟩]
  cases hl : (routes s).2 (Util.RotateLogs.dec n) with
  | none => rfl
  | some x =>
    rcases (tables_sound s.file 0 (fun _ => none, fun _ => none)).2 _ _ hl with h' | ⟨r, hr, _, _, e⟩
    · cases h'
    · rw [file_ports_zero h r hr] at e
      exact absurd (dec_inj e) hn

/-- C59 is false for services given on the command line: without services in the file nothing is reachable, by any
label. -/
theorem no_command_line_service_reached (U : Bytes → Option URL) (c : Cfg) (hc : c.services = []) (s0 : Cli)
    (h : start U c = some s0) (infos : List (Nat × Nat)) (l : Bytes) :
    lookup (routes (List.foldl (step U) s0 (infos.map (fun p => .info p.1 p.2)))) l = none := by
  have hf : ∀ (is : List (Nat × Nat)) (s : Cli), s.file = [] →
      (List.foldl (step U) s (is.map (fun p => .info p.1 p.2))).file = [] := by
    intro is
    induction is with
    | nil => intro s h; exact h
    | cons i is ih => intro s h; exact ih _ h
  have h0 : s0.file = [] := by rw [(start_file h).1, hc]; rfl
  have := hf infos s0 h0
  have hr : routes (List.foldl (step U) s0 (infos.map (fun p => .info p.1 p.2))) = (fun _ => none, fun _ => none) := by
    unfold routes; rw [this]; rfl
  rw [hr]
  unfold lookup
  split
  · rfl
  · rfl
  · split
    · rfl
    · split
      · rfl
      · split <;> rfl

/-- C59 is false for a service that gets the client's id as its prefix: no channel labelled with the id reaches it
(when no service of the file has the id written as its prefix, and the id is not `@`). -/
theorem no_default_prefix_service_reached (U : Bytes → Option URL) (s : Cli) (h : Reach U s) (c : UInt8) (p rest : Bytes)
    (hs : (47 : UInt8) ∉ c :: p) (hc : c.toNat < 128) (hat : p ≠ [] → c ≠ 64 ∧ c ≠ 58) (hid : c :: p ≠ at_)
    (hf : ∀ f ∈ s.file, f.svc.pre ≠ c :: p) : lookup (routes s) (label (.pre (c :: p)) rest) = none := by
  simp only [label, lookup, beforeSlash_append _ _ hs]
  rw [if_neg (by omega), if_neg (fun hh => (hat hh.2).1 hh.1), if_neg (fun hh => (hat hh.2).2 hh.1)]
  cases hl : (routes s).1 (c :: p) with
  | none => rfl
  | some x =>
    rcases (tables_sound s.file 0 (fun _ => none, fun _ => none)).1 _ _ hl with h' | ⟨r, hr, rfl, _, e⟩
    · cases h'
    · rcases e with e | e
      · exact absurd e.symm (hf r hr)
      · exact absurd e hid

/-! ### Witnesses: reachable clients with such services -/

def demoCfg : Cfg := { id := ascii "me", services := [
  { url := some ⟨.http, ascii "a"⟩, pre := ascii "web" },
  { url := some ⟨.http, ascii "b:81"⟩ },
  { url := some ⟨.tcp, ascii "c:22"⟩, port := 2222 },
  { url := some ⟨.http, ascii "d:82"⟩, pre := [195, 169] }] }

def demoCli : Cli := ((start (fun _ => none) demoCfg).map (step (fun _ => none) · (.info 2 2222))).getD ⟨[], []⟩

theorem demo_reach : Reach (fun _ => none) demoCli := by
  refine ⟨demoCfg, (start (fun _ => none) demoCfg).getD ⟨[], []⟩, [.info 2 2222], ?_, ?_⟩ <;> decide +kernel

/-- Non-vacuity of the two positive theorems: "web/x" reaches a:80. -/
example : (∃ f ∈ demoCli.file, f.svc.pre = ascii "web") ∧ (lookup (routes demoCli) (ascii "web/x")).bind (·.url) =
    some ⟨.http, ascii "a:80"⟩ ∧ (lookup (routes demoCli) (64 :: 195 :: 169 :: 47 :: [])).bind (·.url) = some ⟨.http, ascii "d:82"⟩ := by
  decide +kernel

/-- The server opened port 2222 for a service of this client, another service runs under the client's id, and a third
under "é"; through P2P the first two are not reached, and "é/" reaches the first service instead. -/
theorem routing_wrong : ∃ s, Reach (fun _ => none) s ∧
    (∃ x, serves s (.port 2222) x ∧ lookup (routes s) (label (.port 2222) []) = none) ∧
    (∃ x, serves s (.pre (ascii "me")) x ∧ lookup (routes s) (label (.pre (ascii "me")) []) = none) ∧
    (∃ x y, serves s (.pre [195, 169]) x ∧ lookup (routes s) (label (.pre [195, 169]) []) = some y ∧ y.url ≠ x.url) := by
  refine ⟨demoCli, demo_reach, ?_, ?_, ?_⟩
  · refine ⟨(demoCli.running[2]?.map (·.svc)).getD {}, ?_, no_tcp_service_reached _ _ demo_reach _ (by omega) _⟩
    exact ⟨(demoCli.running[2]?).getD ⟨{}, 0⟩, by decide +kernel, by decide +kernel, by decide +kernel, by omega⟩
  · refine ⟨(demoCli.running[1]?.map (·.svc)).getD {}, ?_, by decide +kernel⟩
    exact ⟨(demoCli.running[1]?).getD ⟨{}, 0⟩, by decide +kernel, by decide +kernel, by decide +kernel, by decide⟩
  · refine ⟨(demoCli.running[3]?.map (·.svc)).getD {}, (demoCli.file[0]?.map (·.svc)).getD {}, ?_, by decide +kernel,
      by decide +kernel⟩
    exact ⟨(demoCli.running[3]?).getD ⟨{}, 0⟩, by decide +kernel, by decide +kernel, by decide +kernel, by decide⟩

end Verif.P2P.Routes
