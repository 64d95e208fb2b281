import Verif.Common
/-!
# C52: which configuration files the manager runs, and in which role
(bin/src/manager.rs:93-152, 459-497, 810-857)
-/
set_option linter.unusedSimpArgs false
set_option linter.unusedVariables false
namespace Verif.Manager

/-! ## File trees -/

mutual
/-- What a path of the file system leads to. `file none`: reading the metadata fails; `badDir`: `read_dir`
fails or yields a failing entry. Symbolic links are not modelled: a link is what it points to (the code takes
the size of the link itself, `DirEntry::metadata`). -/
inductive Node where
  | file (size : Option Nat)
  | dir (es : Entries)
  | badDir
/-- The entries of a directory in the order in which `read_dir` yields them. -/
inductive Entries where
  | nil
  | cons (name : Bytes) (n : Node) (r : Entries)
end

/-- Rust `Path::extension` on a file name: what follows the last dot, if there is a dot and it is not the
first byte of the name. (The special name `..` is never yielded by `read_dir`.) -/
def extension (name : Bytes) : Option Bytes :=
  let ext := (name.reverse.takeWhile (· ≠ 46)).reverse
  let stem := name.take (name.length - ext.length - 1)
  if ext.length = name.length ∨ stem = [] then none else some ext

/-- bin/src/manager.rs:107-116. -/
def isYaml (name : Bytes) : Bool :=
  match extension name with
  | some e => e = ascii "yaml" || e = ascii "yml"
  | none => false

/-- bin/src/manager.rs:118 `10 * 1024 * 1024`. -/
def maxSize : Nat := 10 * 1024 * 1024

mutual
/-- bin/src/manager.rs:93-131 `collect_files(path, depth)`. `max` is `self.args.depth.unwrap_or(3)`; both are `u8`, and
`depth + 1` wraps (release profile). `none`: an error. -/
def collect (max depth : Nat) (path : List Bytes) : Node → Option (List (List Bytes))
  | .file _ => some [path]
  | .badDir => none
  | .dir es => collectEntries max depth path es
/-- bin/src/manager.rs:96-125: the loop over the entries. -/
def collectEntries (max depth : Nat) (path : List Bytes) : Entries → Option (List (List Bytes))
  | .nil => some []
  | .cons name (.file size) r =>
    if isYaml name then
      match size with
      | none => none
      | some s =>
        if s > maxSize then collectEntries max depth path r
        else
          match collectEntries max depth path r with
          | none => none
          | some fs => some ((path ++ [name]) :: fs)
    else collectEntries max depth path r
  | .cons name (.dir es) r =>
    if max ≠ 0 ∧ (depth + 1) % 256 > max then collectEntries max depth path r
    else
      match collectEntries max ((depth + 1) % 256) (path ++ [name]) es with
      | none => none
      | some fs =>
        match collectEntries max depth path r with
        | none => none
        | some gs => some (fs ++ gs)
  | .cons name .badDir r =>
    if max ≠ 0 ∧ (depth + 1) % 256 > max then collectEntries max depth path r else none
end

/-! ## Specification -/

/-- The node at relative path `p` below a directory. -/
inductive At : Entries → List Bytes → Node → Prop
  | here (name n r) : At (.cons name n r) [name] n
  | there (name n r p x) : At r p x → At (.cons name n r) p x
  | sub (name es r p x) : At es p x → At (.cons name (.dir es) r) (name :: p) x

/-- A name with the ending `.yaml` or `.yml` and something before it. -/
def YamlName (name : Bytes) : Prop :=
  ∃ stem, stem ≠ [] ∧ (name = stem ++ ascii ".yaml" ∨ name = stem ++ ascii ".yml")

/-- The files to be run below a directory: YAML files of at most 10 MiB, at most `max` directory levels deep
(the directory itself is the first level); `max = 0` is no limit. -/
def Wanted (max : Nat) (es : Entries) (p : List Bytes) : Prop :=
  (∃ s, At es p (.file (some s)) ∧ s ≤ 10485760) ∧
  (∃ dir name, p = dir ++ [name] ∧ YamlName name) ∧
  (max = 0 ∨ p.length ≤ max)

theorem reverse_take_append (l : Bytes) (f : UInt8 → Bool) :
    ∃ rest, l = rest ++ (l.reverse.takeWhile f).reverse := by
  refine ⟨(l.reverse.dropWhile f).reverse, ?_⟩
  have h := congrArg List.reverse (List.takeWhile_append_dropWhile (p := f) (l := l.reverse))
  rw [List.reverse_append, List.reverse_reverse] at h
  exact h.symm

theorem extension_append (stem e : Bytes) (hs : stem ≠ []) (he : (46 : UInt8) ∉ e) :
    extension (stem ++ 46 :: e) = some e := by
  have h1 : ((stem ++ 46 :: e).reverse.takeWhile (· ≠ 46)).reverse = e := by
    rw [List.reverse_append, List.reverse_cons, List.append_assoc,
      List.takeWhile_append_of_pos (by
        intro a ha
        simp only [ne_eq, decide_not, Bool.not_eq_true', decide_eq_false_iff_not]
        intro h; subst h; exact he (List.mem_reverse.mp ha))]
    simp
  unfold extension
  simp only [h1]
  rw [if_neg]
  simp only [List.length_append, List.length_cons, not_or]
  refine ⟨by omega, ?_⟩
  have h2 : stem.length + (e.length + 1) - e.length - 1 = stem.length := by omega
  rw [h2, List.take_append_of_le_length (by omega), List.take_length]
  exact hs

theorem extension_some {name e : Bytes} (h : extension name = some e) :
    ∃ stem, stem ≠ [] ∧ name = stem ++ 46 :: e := by
  unfold extension at h
  dsimp only at h
  split at h
  · cases h
  · rename_i hc
    rw [Option.some.injEq] at h
    obtain ⟨rest, hrest⟩ := reverse_take_append name (fun x => decide (x ≠ 46))
    rw [h] at hrest hc
    have hl : name.length = rest.length + e.length := by
      have := congrArg List.length hrest
      rw [List.length_append] at this; exact this
    have hr : rest = (name.reverse.dropWhile (fun x => decide (x ≠ 46))).reverse := by
      have h3 := congrArg List.reverse (List.takeWhile_append_dropWhile
        (p := fun x => decide (x ≠ (46 : UInt8))) (l := name.reverse))
      rw [List.reverse_append, List.reverse_reverse, h] at h3
      exact (List.append_cancel_right (h3.trans hrest)).symm
    have hc1 : ¬ e.length = name.length := fun x => hc (Or.inl x)
    have hc2 : ¬ name.take (name.length - e.length - 1) = [] := fun x => hc (Or.inr x)
    have hne : rest ≠ [] := by
      intro h0; rw [h0] at hl; simp at hl; omega
    cases hd : name.reverse.dropWhile (fun x => decide (x ≠ (46 : UInt8))) with
    | nil => rw [hd] at hr; exact absurd (by simpa using hr) hne
    | cons a t =>
      have ha : a = 46 := by
        have := List.head?_dropWhile_not (p := fun x => decide (x ≠ (46 : UInt8))) name.reverse
        rw [hd] at this
        simpa using this
      rw [hd, List.reverse_cons, ha] at hr
      refine ⟨t.reverse, ?_, ?_⟩
      · intro h0
        apply hc2
        rw [hr, h0] at hl
        simp at hl
        have : name.length - e.length - 1 = 0 := by omega
        rw [this, List.take_zero]
      · rw [hrest, hr, List.append_assoc]; rfl

theorem isYaml_iff (name : Bytes) : isYaml name = true ↔ YamlName name := by
  have h1 : ascii ".yaml" = 46 :: ascii "yaml" := rfl
  have h2 : ascii ".yml" = 46 :: ascii "yml" := rfl
  unfold isYaml YamlName
  rw [h1, h2]
  constructor
  · intro h
    cases he : extension name with
    | none => rw [he] at h; cases h
    | some e =>
      rw [he] at h
      obtain ⟨stem, hs, hn⟩ := extension_some he
      refine ⟨stem, hs, ?_⟩
      simp only [Bool.or_eq_true, decide_eq_true_eq] at h
      rcases h with h | h
      · left; rw [hn, h]
      · right; rw [hn, h]
  · rintro ⟨stem, hs, h | h⟩
    · rw [h, extension_append _ _ hs (by decide)]; rfl
    · rw [h, extension_append _ _ hs (by decide)]; rfl

/-! ## Exactness -/

theorem snoc_one {α} {name nm : α} {dir : List α} (h : [name] = dir ++ [nm]) : name = nm := by
  cases dir with
  | nil => rw [List.nil_append, List.cons.injEq] at h; exact h.1
  | cons a t =>
    rw [List.cons_append, List.cons.injEq] at h
    have := congrArg List.length h.2
    simp at this

theorem collectEntries_file (max d : Nat) (path : List Bytes) (name : Bytes) (size : Option Nat) (r : Entries) :
    collectEntries max d path (.cons name (.file size) r) =
      if isYaml name then
        match size with
        | none => none
        | some s =>
          if s > maxSize then collectEntries max d path r
          else
            match collectEntries max d path r with
            | none => none
            | some fs => some ((path ++ [name]) :: fs)
      else collectEntries max d path r := by
  cases size with
  | none => rw [collectEntries]
  | some s => rw [collectEntries]

theorem At.ne_nil {es p x} (h : At es p x) : p ≠ [] := by
  induction h with
  | here => intro h; cases h
  | there _ _ _ _ _ _ ih => exact ih
  | sub => intro h; cases h

theorem not_at_nil {p x} : ¬ At .nil p x := by intro h; cases h

/-- The part of `Wanted` seen from a directory at level `d`. -/
def WantedAt (max d : Nat) (es : Entries) (p : List Bytes) : Prop :=
  (∃ s, At es p (.file (some s)) ∧ s ≤ maxSize) ∧
  (∃ dir name, p = dir ++ [name] ∧ isYaml name = true) ∧
  (max = 0 ∨ d + p.length ≤ max + 1)

theorem wantedAt_nil {max d p} : ¬ WantedAt max d .nil p := by
  rintro ⟨⟨s, h, _⟩, _⟩; exact not_at_nil h

/-- The file of an entry. -/
theorem wantedAt_file {max d name size r p} (hd : max = 0 ∨ d ≤ max) :
    WantedAt max d (.cons name (.file size) r) p ↔
      (p = [name] ∧ isYaml name = true ∧ ∃ s, size = some s ∧ s ≤ maxSize) ∨ WantedAt max d r p := by
  constructor
  · rintro ⟨⟨s, h, hs⟩, ⟨dir, nm, hp, hy⟩, hm⟩
    cases h with
    | here =>
      left
      rw [← snoc_one hp] at hy
      exact ⟨rfl, hy, s, rfl, hs⟩
    | there _ _ _ _ _ h => exact Or.inr ⟨⟨s, h, hs⟩, ⟨dir, nm, hp, hy⟩, hm⟩
  · rintro (⟨rfl, hy, s, rfl, hs⟩ | ⟨⟨s, h, hs⟩, hp, hm⟩)
    · refine ⟨⟨s, At.here .., hs⟩, ⟨[], name, rfl, hy⟩, ?_⟩
      rcases hd with hd | hd
      · exact Or.inl hd
      · right; simp; omega
    · exact ⟨⟨s, At.there _ _ _ _ _ h, hs⟩, hp, hm⟩

theorem append_singleton_cons {α} {name : α} {p dir : List α} {nm : α} (hp : p ≠ [])
    (h : name :: p = dir ++ [nm]) : ∃ dir', p = dir' ++ [nm] := by
  cases dir with
  | nil => rw [List.nil_append, List.cons.injEq] at h; exact absurd h.2 hp
  | cons a t => rw [List.cons_append, List.cons.injEq] at h; exact ⟨t, h.2⟩

theorem wantedAt_dir {max d name es r p} :
    WantedAt max d (.cons name (.dir es) r) p ↔
      (∃ q, p = name :: q ∧ WantedAt max (d + 1) es q) ∨ WantedAt max d r p := by
  constructor
  · rintro ⟨⟨s, h, hs⟩, ⟨dir, nm, hp, hy⟩, hm⟩
    cases h with
    | there _ _ _ _ _ h => exact Or.inr ⟨⟨s, h, hs⟩, ⟨dir, nm, hp, hy⟩, hm⟩
    | sub _ _ _ q _ h =>
      left
      obtain ⟨dir', hq⟩ := append_singleton_cons h.ne_nil hp
      refine ⟨q, rfl, ⟨s, h, hs⟩, ⟨dir', nm, hq, hy⟩, ?_⟩
      rcases hm with hm | hm
      · exact Or.inl hm
      · right; simp at hm; omega
  · rintro (⟨q, rfl, ⟨s, h, hs⟩, ⟨dir, nm, hp, hy⟩, hm⟩ | ⟨⟨s, h, hs⟩, hp, hm⟩)
    · refine ⟨⟨s, At.sub _ _ _ _ _ h, hs⟩, ⟨name :: dir, nm, by rw [hp]; rfl, hy⟩, ?_⟩
      rcases hm with hm | hm
      · exact Or.inl hm
      · right; simp; omega
    · exact ⟨⟨s, At.there _ _ _ _ _ h, hs⟩, hp, hm⟩

theorem wantedAt_badDir {max d name r p} :
    WantedAt max d (.cons name .badDir r) p ↔ WantedAt max d r p := by
  constructor
  · rintro ⟨⟨s, h, hs⟩, hp, hm⟩
    cases h with
    | there _ _ _ _ _ h => exact ⟨⟨s, h, hs⟩, hp, hm⟩
  · rintro ⟨⟨s, h, hs⟩, hp, hm⟩
    exact ⟨⟨s, At.there _ _ _ _ _ h, hs⟩, hp, hm⟩

theorem wantedAt_deep {max d es p} (h0 : max ≠ 0) (h : d > max) : ¬ WantedAt max d es p := by
  rintro ⟨⟨s, ha, _⟩, _, hm⟩
  have := List.length_pos_iff.mpr ha.ne_nil
  rcases hm with hm | hm
  · exact h0 hm
  · omega

/-- With `max = 0` the level plays no part. -/
theorem wantedAt_zero {d d' es p} : WantedAt 0 d es p ↔ WantedAt 0 d' es p := by
  constructor
  · rintro ⟨a, b, _⟩; exact ⟨a, b, Or.inl rfl⟩
  · rintro ⟨a, b, _⟩; exact ⟨a, b, Or.inl rfl⟩

theorem collectEntries_exact (max : Nat) (hmax : max < 255) :
    ∀ (es : Entries) (d : Nat) (path : List Bytes) (fs : List (List Bytes)),
      (max = 0 ∨ d ≤ max) →
      collectEntries max d path es = some fs →
      ∀ p', p' ∈ fs ↔ ∃ p, p' = path ++ p ∧ WantedAt max d es p
  | .nil, d, path, fs, hd, h, p' => by
    rw [collectEntries] at h
    cases h
    constructor
    · intro h; cases h
    · rintro ⟨p, _, h⟩; exact absurd h wantedAt_nil
  | .cons name (.file size) r, d, path, fs, hd, h, p' => by
    rw [collectEntries_file] at h
    by_cases hy : isYaml name = true
    · rw [if_pos hy] at h
      cases size with
      | none => cases h
      | some s =>
        dsimp only at h
        by_cases hs : s > maxSize
        · rw [if_pos hs] at h
          rw [collectEntries_exact max hmax r d path fs hd h]
          constructor
          · rintro ⟨p, e, w⟩; exact ⟨p, e, (wantedAt_file hd).mpr (Or.inr w)⟩
          · rintro ⟨p, e, w⟩
            rcases (wantedAt_file hd).mp w with ⟨_, _, s', hs', hle⟩ | w
            · cases hs'; omega
            · exact ⟨p, e, w⟩
        · rw [if_neg hs] at h
          cases hr : collectEntries max d path r with
          | none => rw [hr] at h; cases h
          | some gs =>
            rw [hr] at h
            cases h
            rw [List.mem_cons, collectEntries_exact max hmax r d path gs hd hr]
            constructor
            · rintro (rfl | ⟨p, e, w⟩)
              · exact ⟨[name], rfl, (wantedAt_file hd).mpr (Or.inl ⟨rfl, hy, s, rfl, by omega⟩)⟩
              · exact ⟨p, e, (wantedAt_file hd).mpr (Or.inr w)⟩
            · rintro ⟨p, e, w⟩
              rcases (wantedAt_file hd).mp w with ⟨hp, _⟩ | w
              · left; rw [e, hp]
              · right; exact ⟨p, e, w⟩
    · rw [if_neg hy] at h
      rw [collectEntries_exact max hmax r d path fs hd h]
      constructor
      · rintro ⟨p, e, w⟩; exact ⟨p, e, (wantedAt_file hd).mpr (Or.inr w)⟩
      · rintro ⟨p, e, w⟩
        rcases (wantedAt_file hd).mp w with ⟨_, hy', _⟩ | w
        · exact absurd hy' hy
        · exact ⟨p, e, w⟩
  | .cons name (.dir es) r, d, path, fs, hd, h, p' => by
    rw [collectEntries] at h
    by_cases hc : max ≠ 0 ∧ (d + 1) % 256 > max
    · rw [if_pos hc] at h
      have hd1 : d + 1 > max := by
        rcases hd with hd | hd
        · exact absurd hd hc.1
        · have : (d + 1) % 256 ≤ d + 1 := Nat.mod_le _ _
          omega
      rw [collectEntries_exact max hmax r d path fs hd h]
      constructor
      · rintro ⟨p, e, w⟩; exact ⟨p, e, wantedAt_dir.mpr (Or.inr w)⟩
      · rintro ⟨p, e, w⟩
        rcases wantedAt_dir.mp w with ⟨q, _, w⟩ | w
        · exact absurd w (wantedAt_deep hc.1 hd1)
        · exact ⟨p, e, w⟩
    · rw [if_neg hc] at h
      have hd' : max = 0 ∨ (d + 1) % 256 ≤ max := by
        by_cases h0 : max = 0
        · exact Or.inl h0
        · right
          have : ¬ (d + 1) % 256 > max := fun x => hc ⟨h0, x⟩
          omega
      have hw : ∀ q, WantedAt max ((d + 1) % 256) es q ↔ WantedAt max (d + 1) es q := by
        intro q
        rcases hd with hd | hd
        · subst hd; exact wantedAt_zero
        · have : (d + 1) % 256 = d + 1 := Nat.mod_eq_of_lt (by omega)
          rw [this]
      cases hs : collectEntries max ((d + 1) % 256) (path ++ [name]) es with
      | none => rw [hs] at h; cases h
      | some as =>
        rw [hs] at h
        cases hr : collectEntries max d path r with
        | none => rw [hr] at h; cases h
        | some bs =>
          rw [hr] at h
          cases h
          rw [List.mem_append,
            collectEntries_exact max hmax es ((d + 1) % 256) (path ++ [name]) as hd' hs,
            collectEntries_exact max hmax r d path bs hd hr]
          constructor
          · rintro (⟨p, e, w⟩ | ⟨p, e, w⟩)
            · refine ⟨name :: p, by rw [e, List.append_assoc]; rfl, wantedAt_dir.mpr (Or.inl ⟨p, rfl, (hw p).mp w⟩)⟩
            · exact ⟨p, e, wantedAt_dir.mpr (Or.inr w)⟩
          · rintro ⟨p, e, w⟩
            rcases wantedAt_dir.mp w with ⟨q, hq, w⟩ | w
            · left; exact ⟨q, by rw [e, hq, List.append_assoc]; rfl, (hw q).mpr w⟩
            · right; exact ⟨p, e, w⟩
  | .cons name .badDir r, d, path, fs, hd, h, p' => by
    rw [collectEntries] at h
    by_cases hc : max ≠ 0 ∧ (d + 1) % 256 > max
    · rw [if_pos hc] at h
      rw [collectEntries_exact max hmax r d path fs hd h]
      constructor
      · rintro ⟨p, e, w⟩; exact ⟨p, e, wantedAt_badDir.mpr w⟩
      · rintro ⟨p, e, w⟩; exact ⟨p, e, wantedAt_badDir.mp w⟩
    · rw [if_neg hc] at h; cases h

theorem wantedAt_one {max es p} : WantedAt max 1 es p ↔ Wanted max es p := by
  unfold WantedAt Wanted
  have h : maxSize = 10485760 := by decide
  constructor
  · rintro ⟨a, ⟨dir, nm, e, y⟩, b⟩
    refine ⟨by rw [h] at a; exact a, ⟨dir, nm, e, (isYaml_iff nm).mp y⟩, ?_⟩
    rcases b with b | b
    · exact Or.inl b
    · right; omega
  · rintro ⟨a, ⟨dir, nm, e, y⟩, b⟩
    refine ⟨by rw [h]; exact a, ⟨dir, nm, e, (isYaml_iff nm).mpr y⟩, ?_⟩
    rcases b with b | b
    · exact Or.inl b
    · right; omega

/-- **C52**: the files collected from a directory are exactly the wanted ones. -/
theorem collected_iff_wanted (max : Nat) (hmax : max < 255) (root : List Bytes) (es : Entries)
    (fs : List (List Bytes)) (h : collect max 1 root (.dir es) = some fs) (p' : List Bytes) :
    p' ∈ fs ↔ ∃ p, p' = root ++ p ∧ Wanted max es p := by
  rw [collect] at h
  rw [collectEntries_exact max hmax es 1 root fs (by omega) h]
  constructor
  · rintro ⟨p, e, w⟩; exact ⟨p, e, wantedAt_one.mp w⟩
  · rintro ⟨p, e, w⟩; exact ⟨p, e, wantedAt_one.mpr w⟩

/-! ## Each file once -/

/-- No two entries of a directory have the same name. -/
inductive Distinct : Entries → Prop
  | nil : Distinct .nil
  | file (name size r) : (∀ x, ¬ At r [name] x) → Distinct r → Distinct (.cons name (.file size) r)
  | bad (name r) : (∀ x, ¬ At r [name] x) → Distinct r → Distinct (.cons name .badDir r)
  | dir (name es r) : (∀ x, ¬ At r [name] x) → Distinct es → Distinct r → Distinct (.cons name (.dir es) r)

/-- Some entry has this name. -/
theorem at_head {es p x} (h : At es p x) : ∀ name q, p = name :: q → ∃ y, At es [name] y := by
  induction h with
  | here n x r => intro name q e; cases e; exact ⟨x, At.here ..⟩
  | there n y r p x _ ih =>
    intro name q e
    obtain ⟨z, hz⟩ := ih name q e
    exact ⟨z, At.there _ _ _ _ _ hz⟩
  | sub n es r p x _ _ => intro name q e; cases e; exact ⟨_, At.here ..⟩

theorem collectEntries_prefix (max : Nat) (es : Entries) :
    ∀ (d : Nat) (path : List Bytes) (fs : List (List Bytes)),
      collectEntries max d path es = some fs →
      ∀ p', p' ∈ fs → ∃ p x, p' = path ++ p ∧ At es p x := by
  intro d path fs h p' hp'
  match es with
  | .nil => rw [collectEntries] at h; cases h; cases hp'
  | .cons name (.file size) r =>
    rw [collectEntries_file] at h
    by_cases hy : isYaml name = true
    · rw [if_pos hy] at h
      cases size with
      | none => cases h
      | some s =>
        dsimp only at h
        by_cases hs : s > maxSize
        · rw [if_pos hs] at h
          obtain ⟨p, x, e, ha⟩ := collectEntries_prefix max r d path fs h p' hp'
          exact ⟨p, x, e, At.there _ _ _ _ _ ha⟩
        · rw [if_neg hs] at h
          cases hr : collectEntries max d path r with
          | none => rw [hr] at h; cases h
          | some gs =>
            rw [hr] at h
            cases h
            rcases List.mem_cons.mp hp' with e | hp'
            · exact ⟨[name], _, e, At.here ..⟩
            · obtain ⟨p, x, e, ha⟩ := collectEntries_prefix max r d path gs hr p' hp'
              exact ⟨p, x, e, At.there _ _ _ _ _ ha⟩
    · rw [if_neg hy] at h
      obtain ⟨p, x, e, ha⟩ := collectEntries_prefix max r d path fs h p' hp'
      exact ⟨p, x, e, At.there _ _ _ _ _ ha⟩
  | .cons name (.dir es) r =>
    rw [collectEntries] at h
    by_cases hc : max ≠ 0 ∧ (d + 1) % 256 > max
    · rw [if_pos hc] at h
      obtain ⟨p, x, e, ha⟩ := collectEntries_prefix max r d path fs h p' hp'
      exact ⟨p, x, e, At.there _ _ _ _ _ ha⟩
    · rw [if_neg hc] at h
      cases hs : collectEntries max ((d + 1) % 256) (path ++ [name]) es with
      | none => rw [hs] at h; cases h
      | some as =>
        rw [hs] at h
        cases hr : collectEntries max d path r with
        | none => rw [hr] at h; cases h
        | some bs =>
          rw [hr] at h
          cases h
          rcases List.mem_append.mp hp' with hp' | hp'
          · obtain ⟨p, x, e, ha⟩ := collectEntries_prefix max es _ _ as hs p' hp'
            exact ⟨name :: p, x, by rw [e, List.append_assoc]; rfl, At.sub _ _ _ _ _ ha⟩
          · obtain ⟨p, x, e, ha⟩ := collectEntries_prefix max r d path bs hr p' hp'
            exact ⟨p, x, e, At.there _ _ _ _ _ ha⟩
  | .cons name .badDir r =>
    rw [collectEntries] at h
    by_cases hc : max ≠ 0 ∧ (d + 1) % 256 > max
    · rw [if_pos hc] at h
      obtain ⟨p, x, e, ha⟩ := collectEntries_prefix max r d path fs h p' hp'
      exact ⟨p, x, e, At.there _ _ _ _ _ ha⟩
    · rw [if_neg hc] at h; cases h

theorem collectEntries_nodup (max : Nat) (es : Entries) (hw : Distinct es) :
    ∀ (d : Nat) (path : List Bytes) (fs : List (List Bytes)),
      collectEntries max d path es = some fs → fs.Nodup := by
  induction hw with
  | nil => intro d path fs h; rw [collectEntries] at h; cases h; exact List.nodup_nil
  | file name size r hn _ ih =>
    intro d path fs h
    rw [collectEntries_file] at h
    by_cases hy : isYaml name = true
    · rw [if_pos hy] at h
      cases size with
      | none => cases h
      | some s =>
        dsimp only at h
        by_cases hs : s > maxSize
        · rw [if_pos hs] at h; exact ih _ _ _ h
        · rw [if_neg hs] at h
          cases hr : collectEntries max d path r with
          | none => rw [hr] at h; cases h
          | some gs =>
            rw [hr] at h
            cases h
            refine List.nodup_cons.mpr ⟨?_, ih _ _ _ hr⟩
            intro hm
            obtain ⟨p, x, e, ha⟩ := collectEntries_prefix max r d path gs hr _ hm
            rw [← List.append_cancel_left e] at ha
            exact hn x ha
    · rw [if_neg hy] at h; exact ih _ _ _ h
  | bad name r hn _ ih =>
    intro d path fs h
    rw [collectEntries] at h
    by_cases hc : max ≠ 0 ∧ (d + 1) % 256 > max
    · rw [if_pos hc] at h; exact ih _ _ _ h
    · rw [if_neg hc] at h; cases h
  | dir name es r hn _ _ ihe ihr =>
    intro d path fs h
    rw [collectEntries] at h
    by_cases hc : max ≠ 0 ∧ (d + 1) % 256 > max
    · rw [if_pos hc] at h; exact ihr _ _ _ h
    · rw [if_neg hc] at h
      cases hs : collectEntries max ((d + 1) % 256) (path ++ [name]) es with
      | none => rw [hs] at h; cases h
      | some as =>
        rw [hs] at h
        cases hr : collectEntries max d path r with
        | none => rw [hr] at h; cases h
        | some bs =>
          rw [hr] at h
          cases h
          refine List.nodup_append.mpr ⟨ihe _ _ _ hs, ihr _ _ _ hr, ?_⟩
          intro a ha b hb hab
          subst hab
          obtain ⟨p, x, e, hp⟩ := collectEntries_prefix max es _ _ as hs _ ha
          obtain ⟨q, y, e', hq⟩ := collectEntries_prefix max r d path bs hr _ hb
          rw [e, List.append_assoc] at e'
          have := List.append_cancel_left e'
          obtain ⟨z, hz⟩ := at_head hq name p (by rw [← this]; rfl)
          exact hn z hz

/-- **C52**: no file is collected twice. -/
theorem collected_once (max : Nat) (root : List Bytes) (es : Entries) (hw : Distinct es)
    (fs : List (List Bytes)) (h : collect max 1 root (.dir es) = some fs) : fs.Nodup := by
  rw [collect] at h
  exact collectEntries_nodup max es hw 1 root fs h

/-- A path that is no directory is taken as it is, whatever its name and size (bin/src/manager.rs:126-129). -/
theorem single_file (max : Nat) (path : List Bytes) (size : Option Nat) :
    collect max 1 path (.file size) = some [path] := rfl

/-! ## The limit 255 -/

/-- `n` nested directories, each named `d`, with a file `a.yml` in the innermost. -/
def nest : Nat → Entries
  | 0 => .cons (ascii "a.yml") (.file (some 1)) .nil
  | n + 1 => .cons (ascii "d") (.dir (nest n)) .nil

theorem collect_nest_255 (n d : Nat) (path : List Bytes) :
    collectEntries 255 d path (nest n) = some [path ++ List.replicate n (ascii "d") ++ [ascii "a.yml"]] := by
  induction n generalizing d path with
  | zero =>
    rw [nest, collectEntries_file, if_pos (by decide)]
    simp [collectEntries, maxSize]
  | succ n ih =>
    rw [nest, collectEntries, if_neg (by
      intro h
      have : (d + 1) % 256 < 256 := Nat.mod_lt _ (by decide)
      omega), ih, collectEntries]
    simp [List.replicate_succ]

/-- With the largest limit, 255, the 8-bit level wraps around and nothing is too deep. -/
theorem limit_255_is_no_limit (n : Nat) :
    collect 255 1 [] (.dir (nest n)) = some [List.replicate n (ascii "d") ++ [ascii "a.yml"]] := by
  rw [collect, collect_nest_255]; rfl

theorem at_nest (n : Nat) :
    At (nest n) (List.replicate n (ascii "d") ++ [ascii "a.yml"]) (.file (some 1)) := by
  induction n with
  | zero => exact At.here ..
  | succ n ih => exact At.sub _ _ _ _ _ ih

theorem limit_255_violated :
    ∃ fs p, collect 255 1 [] (.dir (nest 300)) = some fs ∧ p ∈ fs ∧ ¬ Wanted 255 (nest 300) p := by
  refine ⟨_, _, limit_255_is_no_limit 300, List.mem_singleton.mpr rfl, ?_⟩
  rintro ⟨_, _, h | h⟩
  · cases h
  · rw [List.length_append, List.length_replicate] at h
    have : [ascii "a.yml"].length = 1 := rfl
    omega

/-! ## When collecting fails -/

/-- A node that makes the traversal fail: an unreadable directory, or a YAML file without metadata. -/
inductive Bad : List Bytes → Node → Prop
  | dir (p) : Bad p .badDir
  | file (dir name) : YamlName name → Bad (dir ++ [name]) (.file none)

/-- A directory is traversed on one level less than its files lie. -/
def levels (max : Nat) : Node → Nat
  | .badDir => max
  | _ => max + 1

theorem levels_le (max : Nat) (x : Node) : levels max x ≤ max + 1 := by
  cases x <;> simp [levels]

theorem not_bad_dir {p es} : ¬ Bad p (.dir es) := by
  intro b
  generalize hx : Node.dir es = x at b
  cases b with
  | dir => cases hx
  | file _ _ _ => cases hx

theorem collectEntries_none (max : Nat) (hmax : max < 255) :
    ∀ (es : Entries) (d : Nat) (path : List Bytes), (max = 0 ∨ d ≤ max) →
      (collectEntries max d path es = none ↔
        ∃ p x, At es p x ∧ Bad p x ∧
          (max = 0 ∨ d + p.length ≤ levels max x))
  | .nil, d, path, hd => by
    rw [collectEntries]
    constructor
    · intro h; cases h
    · rintro ⟨p, x, h, _⟩; exact absurd h not_at_nil
  | .cons name (.file size) r, d, path, hd => by
    have ih := collectEntries_none max hmax r d path hd
    have lift : (∃ p x, At r p x ∧ Bad p x ∧
          (max = 0 ∨ d + p.length ≤ levels max x)) →
        ∃ p x, At (.cons name (.file size) r) p x ∧ Bad p x ∧
          (max = 0 ∨ d + p.length ≤ levels max x) := by
      rintro ⟨p, x, a, b, c⟩; exact ⟨p, x, At.there _ _ _ _ _ a, b, c⟩
    have down : (∃ p x, At (.cons name (.file size) r) p x ∧ Bad p x ∧
          (max = 0 ∨ d + p.length ≤ levels max x)) →
        (size = none ∧ isYaml name = true) ∨ ∃ p x, At r p x ∧ Bad p x ∧
          (max = 0 ∨ d + p.length ≤ levels max x) := by
      rintro ⟨p, x, a, b, c⟩
      cases a with
      | here =>
        left
        generalize hp : [name] = p' at b
        generalize hx : Node.file size = x' at b
        cases b with
        | dir => cases hx
        | file dir nm hy =>
          cases hx
          rw [snoc_one hp]
          exact ⟨rfl, (isYaml_iff nm).mpr hy⟩
      | there _ _ _ _ _ a => exact Or.inr ⟨p, x, a, b, c⟩
    rw [collectEntries_file]
    by_cases hy : isYaml name = true
    · rw [if_pos hy]
      cases size with
      | none =>
        dsimp only
        refine ⟨fun _ => ⟨[name], .file none, At.here .., Bad.file [] name ((isYaml_iff name).mp hy), ?_⟩, fun _ => rfl⟩
        rcases hd with hd | hd
        · exact Or.inl hd
        · right; simp [levels]; omega
      | some s =>
        dsimp only
        have hgoal : collectEntries max d path r = none ↔
            ∃ p x, At (.cons name (.file (some s)) r) p x ∧ Bad p x ∧
              (max = 0 ∨ d + p.length ≤ levels max x) := by
          constructor
          · intro h; exact lift (ih.mp h)
          · intro h
            rcases down h with ⟨h, _⟩ | h
            · cases h
            · exact ih.mpr h
        by_cases hs : s > maxSize
        · rw [if_pos hs]; exact hgoal
        · rw [if_neg hs, ← hgoal]
          cases collectEntries max d path r with
          | none => simp
          | some gs => simp
    · rw [if_neg hy]
      constructor
      · intro h; exact lift (ih.mp h)
      · intro h
        rcases down h with ⟨_, h⟩ | h
        · exact absurd h hy
        · exact ih.mpr h
  | .cons name (.dir es) r, d, path, hd => by
    have ih := collectEntries_none max hmax r d path hd
    rw [collectEntries]
    by_cases hc : max ≠ 0 ∧ (d + 1) % 256 > max
    · rw [if_pos hc, ih]
      have hd1 : d = max := by
        rcases hd with hd | hd
        · exact absurd hd hc.1
        · have : (d + 1) % 256 ≤ d + 1 := Nat.mod_le _ _
          omega
      constructor
      · rintro ⟨p, x, a, b, c⟩; exact ⟨p, x, At.there _ _ _ _ _ a, b, c⟩
      · rintro ⟨p, x, a, b, c⟩
        cases a with
        | here => exact absurd b not_bad_dir
        | there _ _ _ _ _ a => exact ⟨p, x, a, b, c⟩
        | sub _ _ _ q _ a =>
          exfalso
          have := List.length_pos_iff.mpr a.ne_nil
          rcases c with c | c
          · exact hc.1 c
          · have := levels_le max x
            simp only [List.length_cons] at c; omega
    · rw [if_neg hc]
      have hd' : max = 0 ∨ (d + 1) % 256 ≤ max := by
        by_cases h0 : max = 0
        · exact Or.inl h0
        · right
          have : ¬ (d + 1) % 256 > max := fun x => hc ⟨h0, x⟩
          omega
      have ihe := collectEntries_none max hmax es ((d + 1) % 256) (path ++ [name]) hd'
      have hlev : max = 0 ∨ (d + 1) % 256 = d + 1 := by
        rcases hd with hd | hd
        · exact Or.inl hd
        · right; exact Nat.mod_eq_of_lt (by omega)
      have key : (collectEntries max ((d + 1) % 256) (path ++ [name]) es = none ∨
          collectEntries max d path r = none) ↔
          ∃ p x, At (.cons name (.dir es) r) p x ∧ Bad p x ∧
            (max = 0 ∨ d + p.length ≤ levels max x) := by
        rw [ih, ihe]
        constructor
        · rintro (⟨p, x, a, b, c⟩ | ⟨p, x, a, b, c⟩)
          · refine ⟨name :: p, x, At.sub _ _ _ _ _ a, ?_, ?_⟩
            · cases b with
              | dir => exact Bad.dir _
              | file dir nm hy => exact Bad.file (name :: dir) nm hy
            · rcases hlev with h0 | h0
              · exact Or.inl h0
              · rw [h0] at c
                rcases c with c | c
                · exact Or.inl c
                · right; simp only [List.length_cons]; omega
          · exact ⟨p, x, At.there _ _ _ _ _ a, b, c⟩
        · rintro ⟨p, x, a, b, c⟩
          cases a with
          | here => exact absurd b not_bad_dir
          | there _ _ _ _ _ a => exact Or.inr ⟨p, x, a, b, c⟩
          | sub _ _ _ q _ a =>
            refine Or.inl ⟨q, x, a, ?_, ?_⟩
            · generalize hp : name :: q = p' at b
              cases b with
              | dir => exact Bad.dir _
              | file dir nm hy =>
                obtain ⟨dir', hq⟩ := append_singleton_cons a.ne_nil hp
                rw [hq]; exact Bad.file dir' nm hy
            · rcases hlev with h0 | h0
              · exact Or.inl h0
              · rw [h0]
                rcases c with c | c
                · exact Or.inl c
                · right; simp only [List.length_cons] at c; omega
      rw [← key]
      cases collectEntries max ((d + 1) % 256) (path ++ [name]) es with
      | none => simp
      | some as =>
        cases collectEntries max d path r with
        | none => simp
        | some bs => simp
  | .cons name .badDir r, d, path, hd => by
    have ih := collectEntries_none max hmax r d path hd
    rw [collectEntries]
    by_cases hc : max ≠ 0 ∧ (d + 1) % 256 > max
    · rw [if_pos hc, ih]
      have hd1 : d = max := by
        rcases hd with hd | hd
        · exact absurd hd hc.1
        · have : (d + 1) % 256 ≤ d + 1 := Nat.mod_le _ _
          omega
      constructor
      · rintro ⟨p, x, a, b, c⟩; exact ⟨p, x, At.there _ _ _ _ _ a, b, c⟩
      · rintro ⟨p, x, a, b, c⟩
        cases a with
        | here =>
          exfalso
          rcases c with c | c
          · exact hc.1 c
          · simp [levels] at c; omega
        | there _ _ _ _ _ a => exact ⟨p, x, a, b, c⟩
    · rw [if_neg hc]
      refine ⟨fun _ => ⟨[name], .badDir, At.here .., Bad.dir _, ?_⟩, fun _ => rfl⟩
      by_cases h0 : max = 0
      · exact Or.inl h0
      · right
        have h1 : ¬ (d + 1) % 256 > max := fun x => hc ⟨h0, x⟩
        have h2 : d ≤ max := by
          rcases hd with hd | hd
          · exact absurd hd h0
          · exact hd
        have h3 : (d + 1) % 256 = d + 1 := Nat.mod_eq_of_lt (by omega)
        simp [levels]; omega

/-- **C52**: collecting fails exactly if a directory that has to be traversed cannot be read or the size of a
YAML file in a traversed directory cannot be determined. -/
theorem collect_fails_iff (max : Nat) (hmax : max < 255) (root : List Bytes) (es : Entries) :
    collect max 1 root (.dir es) = none ↔
      ∃ p x, At es p x ∧ Bad p x ∧
        (max = 0 ∨ 1 + p.length ≤ levels max x) := by
  rw [collect]
  exact collectEntries_none max hmax es 1 root (by omega)

/-! ## Roles (bin/src/manager.rs:810-857, 459-497) -/

/-- `serde_yaml::from_str::<Config>`: the two keys that matter. YAML itself is not modelled. -/
structure Yaml where
  typ : Option Bytes
  services : Bool
deriving DecidableEq, Repr

/-- bin/src/manager.rs:827-841 `is_client_config`; `none`: an error. -/
def isClient (y : Yaml) : Option Bool :=
  if y.services then some true
  else
    match y.typ with
    | some t =>
      if t = ascii "client" then some true
      else if t = ascii "server" then some false
      else if t = ascii "connect" then some false
      else none
    | none => some false

/-- bin/src/manager.rs:843-857 `is_server_config`. -/
def isServer (y : Yaml) : Option Bool :=
  if y.services then some false
  else
    match y.typ with
    | some t =>
      if t = ascii "client" then some false
      else if t = ascii "server" then some true
      else if t = ascii "connect" then some false
      else none
    | none => some false

inductive Role where
  | server | client | connect
deriving DecidableEq, Repr

/-- What to run (bin/src/manager.rs:70-76); for `Config` the path. -/
inductive Cfg where
  | config (path : List Bytes)
  | server (args : Option Bytes)
  | client (args : Option Bytes)
  | connect (args : Option Bytes)
deriving DecidableEq, Repr

/-- bin/src/manager.rs:466-472: the group of a file. -/
def yamlRole (y : Yaml) : Option Role :=
  match isClient y with
  | none => none
  | some true => some .client
  | some false =>
    match isServer y with
    | none => none
    | some true => some .server
    | some false => some .connect

/-- bin/src/manager.rs:464-477: the group one configuration is put in. `read` is reading and parsing a file (`none` if
that fails); a file read twice is assumed to be the same both times. -/
def roleOf (read : List Bytes → Option Yaml) : Cfg → Option Role
  | .config path => (read path).bind yamlRole
  | .server _ => some .server
  | .client _ => some .client
  | .connect _ => some .connect

/-- bin/src/manager.rs:460-478: the three groups, in the order of the configurations; `none`: `?` returned an error. -/
def groups (read : List Bytes → Option Yaml) : List Cfg → Option (List Cfg × List Cfg × List Cfg)
  | [] => some ([], [], [])
  | c :: cs =>
    match roleOf read c with
    | none => none
    | some r =>
      match groups read cs with
      | none => none
      | some (s, cl, co) =>
        match r with
        | .server => some (c :: s, cl, co)
        | .client => some (s, c :: cl, co)
        | .connect => some (s, cl, c :: co)

/-- bin/src/manager.rs:459-497 `run_configs`: the processes started, in order; `none`: it fails before starting any.
(Failures of `spawn` are not modelled.) -/
def runConfigs (read : List Bytes → Option Yaml) (cs : List Cfg) : Option (List (Role × Cfg)) :=
  match groups read cs with
  | none => none
  | some (s, cl, co) =>
    some (s.map (Prod.mk .server) ++ cl.map (Prod.mk .client) ++ co.map (Prod.mk .connect))

/-- The arguments of the manager (bin/src/manager.rs:47-53); `connectArgs` is what `gt connect` sets. -/
structure Args where
  config : Option (List Bytes)
  depth : Option Nat
  serverArgs : Option (Option Bytes)
  clientArgs : Option (Option Bytes)
  connectArgs : Option (Option Bytes)
deriving DecidableEq, Repr

/-- bin/src/manager.rs:133-152 `collect_configs`. `fs` is the file system, `cwd` the current directory. -/
def collectConfigs (fs : List Bytes → Node) (cwd : List Bytes) (a : Args) : Option (List Cfg) :=
  let cs :=
    match a.serverArgs with
    | some x => some [Cfg.server x]
    | none =>
      match a.clientArgs with
      | some x => some [Cfg.client x]
      | none =>
        let root := a.config.getD cwd
        (collect (a.depth.getD 3) 1 root (fs root)).map (List.map Cfg.config)
  match cs with
  | none => none
  | some [] => none
  | some l => some l

/-- The processes `gt` starts. -/
def startUp (fs : List Bytes → Node) (cwd : List Bytes) (read : List Bytes → Option Yaml) (a : Args) :
    Option (List (Role × Cfg)) :=
  match collectConfigs fs cwd a with
  | none => none
  | some cs => runConfigs read cs

/-! ### Specification: the role of a file -/

/-- A file with services is a client's, whatever its `type`; otherwise `type` decides; a file with neither is a
connector's. -/
inductive FileRole : Yaml → Role → Prop
  | services (t) : FileRole ⟨t, true⟩ .client
  | client : FileRole ⟨some (ascii "client"), false⟩ .client
  | server : FileRole ⟨some (ascii "server"), false⟩ .server
  | connect : FileRole ⟨some (ascii "connect"), false⟩ .connect
  | plain : FileRole ⟨none, false⟩ .connect

theorem yamlRole_iff (y : Yaml) (r : Role) : yamlRole y = some r ↔ FileRole y r := by
  obtain ⟨t, s⟩ := y
  constructor
  · intro h
    cases s with
    | true =>
      have : yamlRole ⟨t, true⟩ = some .client := by simp [yamlRole, isClient]
      rw [this] at h; cases h; exact FileRole.services t
    | false =>
      cases t with
      | none =>
        have : yamlRole ⟨none, false⟩ = some .connect := by decide
        rw [this] at h; cases h; exact FileRole.plain
      | some t =>
        by_cases h1 : t = ascii "client"
        · subst h1
          have : yamlRole ⟨some (ascii "client"), false⟩ = some .client := by decide
          rw [this] at h; cases h; exact FileRole.client
        · by_cases h2 : t = ascii "server"
          · subst h2
            have : yamlRole ⟨some (ascii "server"), false⟩ = some .server := by decide
            rw [this] at h; cases h; exact FileRole.server
          · by_cases h3 : t = ascii "connect"
            · subst h3
              have : yamlRole ⟨some (ascii "connect"), false⟩ = some .connect := by decide
              rw [this] at h; cases h; exact FileRole.connect
            · have : yamlRole ⟨some t, false⟩ = none := by simp [yamlRole, isClient, h1, h2, h3]
              rw [this] at h; cases h
  · intro h
    cases h with
    | services t => simp [yamlRole, isClient]
    | client => decide
    | server => decide
    | connect => decide
    | plain => decide

theorem roleOf_config (read : List Bytes → Option Yaml) (path : List Bytes) (r : Role) :
    roleOf read (.config path) = some r ↔ ∃ y, read path = some y ∧ FileRole y r := by
  unfold roleOf
  rw [Option.bind_eq_some_iff]
  constructor
  · rintro ⟨y, e, h⟩; exact ⟨y, e, (yamlRole_iff y r).mp h⟩
  · rintro ⟨y, e, h⟩; exact ⟨y, e, (yamlRole_iff y r).mpr h⟩

theorem groups_none (read) (cs : List Cfg) : groups read cs = none ↔ ∃ c ∈ cs, roleOf read c = none := by
  induction cs with
  | nil => simp [groups]
  | cons c cs ih =>
    rw [groups]
    cases hr : roleOf read c with
    | none => simp [hr]
    | some r =>
      simp only [List.mem_cons, exists_eq_or_imp, hr]
      cases hg : groups read cs with
      | none => simp only [hg] at ih; simpa using ih
      | some g =>
        obtain ⟨s, cl, co⟩ := g
        simp only [hg] at ih
        cases r <;> simpa using ih

theorem groups_count (read) (cs : List Cfg) (s cl co : List Cfg) (h : groups read cs = some (s, cl, co))
    (c : Cfg) :
    s.count c = (if roleOf read c = some .server then cs.count c else 0) ∧
    cl.count c = (if roleOf read c = some .client then cs.count c else 0) ∧
    co.count c = (if roleOf read c = some .connect then cs.count c else 0) := by
  induction cs generalizing s cl co with
  | nil => simp [groups] at h; obtain ⟨rfl, rfl, rfl⟩ := h; simp
  | cons a cs ih =>
    rw [groups] at h
    cases hr : roleOf read a with
    | none => rw [hr] at h; cases h
    | some r =>
      rw [hr] at h
      cases hg : groups read cs with
      | none => rw [hg] at h; cases h
      | some g =>
        obtain ⟨s', cl', co'⟩ := g
        rw [hg] at h
        obtain ⟨i1, i2, i3⟩ := ih s' cl' co' hg
        by_cases hac : a = c
        · subst hac
          rw [hr] at i1 i2 i3 ⊢
          cases r with
          | server =>
            simp only [Option.some.injEq, Prod.mk.injEq] at h
            obtain ⟨rfl, rfl, rfl⟩ := h
            simp at i1 i2 i3 ⊢
            simp [i1, i2, i3]
          | client =>
            simp only [Option.some.injEq, Prod.mk.injEq] at h
            obtain ⟨rfl, rfl, rfl⟩ := h
            simp at i1 i2 i3 ⊢
            simp [i1, i2, i3]
          | connect =>
            simp only [Option.some.injEq, Prod.mk.injEq] at h
            obtain ⟨rfl, rfl, rfl⟩ := h
            simp at i1 i2 i3 ⊢
            simp [i1, i2, i3]
        · have hb : (a == c) = false := by simp [hac]
          have hcc : ∀ l : List Cfg, (a :: l).count c = l.count c := by
            intro l; rw [List.count_cons, hb]; simp
          cases r with
          | server =>
            simp only [Option.some.injEq, Prod.mk.injEq] at h
            obtain ⟨rfl, rfl, rfl⟩ := h
            rw [hcc, hcc]; exact ⟨i1, i2, i3⟩
          | client =>
            simp only [Option.some.injEq, Prod.mk.injEq] at h
            obtain ⟨rfl, rfl, rfl⟩ := h
            rw [hcc, hcc]; exact ⟨i1, i2, i3⟩
          | connect =>
            simp only [Option.some.injEq, Prod.mk.injEq] at h
            obtain ⟨rfl, rfl, rfl⟩ := h
            rw [hcc, hcc]; exact ⟨i1, i2, i3⟩

theorem count_map_mk (r r' : Role) (c : Cfg) (l : List Cfg) :
    (l.map (Prod.mk r)).count (r', c) = if r = r' then l.count c else 0 := by
  induction l with
  | nil => simp
  | cons a l ih =>
    rw [List.map_cons, List.count_cons, ih, List.count_cons]
    by_cases h : r = r'
    · subst h
      have : ((r, a) == (r, c)) = (a == c) := by
        by_cases hac : a = c
        · subst hac; simp
        · have h1 : (a == c) = false := by simp [hac]
          have h2 : ((r, a) == (r, c)) = false := by simp [hac]
          rw [h1, h2]
      simp [this]
    · have h2 : ((r, a) == (r', c)) = false := by simp [h]
      simp [h, h2]

/-- **C52**: if the start succeeds, every configuration is started exactly as often as it was given, in its
role and in no other. -/
theorem started_exactly (read : List Bytes → Option Yaml) (cs : List Cfg) (out : List (Role × Cfg))
    (h : runConfigs read cs = some out) (r : Role) (c : Cfg) :
    out.count (r, c) = if roleOf read c = some r then cs.count c else 0 := by
  unfold runConfigs at h
  cases hg : groups read cs with
  | none => rw [hg] at h; cases h
  | some g =>
    obtain ⟨s, cl, co⟩ := g
    rw [hg] at h
    simp only [Option.some.injEq] at h
    subst h
    obtain ⟨i1, i2, i3⟩ := groups_count read cs s cl co hg c
    rw [List.count_append, List.count_append, count_map_mk, count_map_mk, count_map_mk, i1, i2, i3]
    cases r <;> simp

/-- **C52**: one configuration that cannot be read or has an unknown type prevents every start. -/
theorem start_fails_iff (read : List Bytes → Option Yaml) (cs : List Cfg) :
    runConfigs read cs = none ↔ ∃ c ∈ cs, roleOf read c = none := by
  unfold runConfigs
  rw [← groups_none]
  cases groups read cs with
  | none => simp
  | some g => simp

/-- **C52**: batch start-up from a directory: the processes started are exactly one per wanted file, each in
the role of the file. -/
theorem batch_start (fs : List Bytes → Node) (cwd : List Bytes) (read : List Bytes → Option Yaml)
    (dir : List Bytes) (depth : Option Nat) (es : Entries) (hfs : fs dir = .dir es) (hd : Distinct es)
    (hmax : depth.getD 3 < 255) (out : List (Role × Cfg))
    (h : startUp fs cwd read ⟨some dir, depth, none, none, none⟩ = some out) (r : Role) (path : List Bytes) :
    out.count (r, .config path) ≤ 1 ∧
    (out.count (r, .config path) = 1 ↔
      (∃ p, path = dir ++ p ∧ Wanted (depth.getD 3) es p) ∧ (∃ y, read path = some y ∧ FileRole y r)) := by
  unfold startUp collectConfigs at h
  simp only [Option.getD_some, hfs] at h
  cases hc : collect (depth.getD 3) 1 dir (.dir es) with
  | none => rw [hc] at h; simp at h
  | some files =>
    rw [hc] at h
    simp only [Option.map_some] at h
    have hrun : runConfigs read (files.map Cfg.config) = some out := by
      cases hf : files.map Cfg.config with
      | nil => rw [hf] at h; cases h
      | cons a l => rw [hf] at h; exact h
    rw [started_exactly read _ out hrun, ← roleOf_config read path r]
    have hcount : (files.map Cfg.config).count (Cfg.config path) =
        if path ∈ files then 1 else 0 := by
      have hn := collected_once _ dir es hd files hc
      have hn' : (files.map Cfg.config).Nodup :=
        List.Pairwise.map _ (fun a b hab hx => hab (by cases hx; rfl)) hn
      by_cases hm : path ∈ files
      · rw [if_pos hm]
        rw [hn'.count]
        rw [if_pos (List.mem_map.mpr ⟨path, hm, rfl⟩)]
      · rw [if_neg hm]
        apply List.count_eq_zero.mpr
        intro hx
        obtain ⟨q, hq, e⟩ := List.mem_map.mp hx
        cases e
        exact hm hq
    rw [hcount]
    have hw := collected_iff_wanted _ hmax dir es files hc path
    by_cases h1 : roleOf read (.config path) = some r
    · rw [if_pos h1]
      by_cases h2 : path ∈ files
      · rw [if_pos h2]
        exact ⟨Nat.le_refl _, fun _ => ⟨hw.mp h2, h1⟩, fun _ => rfl⟩
      · rw [if_neg h2]
        exact ⟨by omega, fun h => by omega, fun h => absurd (hw.mpr h.1) h2⟩
    · rw [if_neg h1]
      exact ⟨by omega, fun h => by omega, fun h => absurd h.2 h1⟩

/-- **C52**: and nothing else is started, and something is. -/
theorem batch_start_only (fs : List Bytes → Node) (cwd : List Bytes) (read : List Bytes → Option Yaml)
    (dir : List Bytes) (depth : Option Nat) (es : Entries) (hfs : fs dir = .dir es)
    (out : List (Role × Cfg))
    (h : startUp fs cwd read ⟨some dir, depth, none, none, none⟩ = some out) :
    out ≠ [] ∧ ∀ x ∈ out, ∃ r path, x = (r, .config path) := by
  unfold startUp collectConfigs at h
  simp only [Option.getD_some, hfs] at h
  cases hc : collect (depth.getD 3) 1 dir (.dir es) with
  | none => rw [hc] at h; simp at h
  | some files =>
    rw [hc] at h
    simp only [Option.map_some] at h
    cases files with
    | nil => cases h
    | cons f files =>
      have hrun : runConfigs read (Cfg.config f :: files.map Cfg.config) = some out := h
      constructor
      · intro he
        cases hr : roleOf read (.config f) with
        | none =>
          have := (start_fails_iff read (Cfg.config f :: files.map Cfg.config)).mpr ⟨_, List.mem_cons_self, hr⟩
          rw [hrun] at this
          cases this
        | some r =>
          have := started_exactly read _ out hrun r (.config f)
          rw [if_pos hr, he] at this
          simp at this
      · rintro ⟨r, c⟩ hx
        have h1 := started_exactly read _ out hrun r c
        have h2 : 0 < out.count (r, c) := List.count_pos_iff.mpr hx
        by_cases hr : roleOf read c = some r
        · rw [if_pos hr] at h1
          have h3 : 0 < (Cfg.config f :: files.map Cfg.config).count c := by omega
          have h4 := List.count_pos_iff.mp h3
          rcases List.mem_cons.mp h4 with h4 | h4
          · exact ⟨r, f, by rw [h4]⟩
          · obtain ⟨q, _, e⟩ := List.mem_map.mp h4
            exact ⟨r, q, by rw [e]⟩
        · rw [if_neg hr] at h1; omega

/-- **C52 is false** for `gt connect -c file`: `collect_configs` never looks at the connect arguments, so the
files of the current directory are run instead, whatever was asked for. -/
theorem connect_args_ignored (fs : List Bytes → Node) (cwd : List Bytes) (read : List Bytes → Option Yaml)
    (x y : Option (Option Bytes)) :
    startUp fs cwd read ⟨none, none, none, none, x⟩ = startUp fs cwd read ⟨none, none, none, none, y⟩ := rfl

/-- A concrete tree: `a.yml` (client), `b.yaml` (server), `c.txt`, a directory `d` with `e.yml`. -/
def exampleTree : Entries :=
  .cons (ascii "a.yml") (.file (some 100)) (.cons (ascii "c.txt") (.file (some 5))
    (.cons (ascii "d") (.dir (.cons (ascii "e.yml") (.file (some 10485761)) (.cons (ascii "b.yaml") (.file (some 7)) .nil))) .nil))

def exampleRead : List Bytes → Option Yaml := fun p =>
  if p = [ascii "conf", ascii "a.yml"] then some ⟨none, true⟩
  else if p = [ascii "conf", ascii "d", ascii "b.yaml"] then some ⟨some (ascii "server"), false⟩
  else none

theorem batch_start_example :
    startUp (fun _ => .dir exampleTree) [] exampleRead ⟨some [ascii "conf"], none, none, none, none⟩ =
      some [(.server, .config [ascii "conf", ascii "d", ascii "b.yaml"]), (.client, .config [ascii "conf", ascii "a.yml"])] := by
  rfl

theorem exampleTree_distinct : Distinct exampleTree := by
  have d1 : ∀ x, ¬ At (.cons (ascii "b.yaml") (.file (some 7)) .nil) [ascii "e.yml"] x := by
    intro x h
    generalize hp : [ascii "e.yml"] = p at h
    cases h with
    | here => exact absurd hp (by decide)
    | there _ _ _ _ _ h => exact not_at_nil h
  have d2 : ∀ es x, ¬ At (.cons (ascii "d") (.dir es) .nil) [ascii "c.txt"] x := by
    intro es x h
    generalize hp : [ascii "c.txt"] = p at h
    cases h with
    | here => exact absurd hp (by decide)
    | there _ _ _ _ _ h => exact not_at_nil h
    | sub _ _ _ q _ h => rw [List.cons.injEq] at hp; exact absurd hp.1 (by decide)
  have d3 : ∀ sz es x, ¬ At (.cons (ascii "c.txt") (.file sz) (.cons (ascii "d") (.dir es) .nil)) [ascii "a.yml"] x := by
    intro sz es x h
    generalize hp : [ascii "a.yml"] = p at h
    cases h with
    | here => exact absurd hp (by decide)
    | there _ _ _ _ _ h =>
      subst hp
      generalize hp : [ascii "a.yml"] = p at h
      cases h with
      | here => exact absurd hp (by decide)
      | there _ _ _ _ _ h => exact not_at_nil h
      | sub _ _ _ q _ h => rw [List.cons.injEq] at hp; exact absurd hp.1 (by decide)
  exact .file _ _ _ (d3 _ _) (.file _ _ _ (d2 _) (.dir _ _ _ (fun _ => not_at_nil)
    (.file _ _ _ d1 (.file _ _ _ (fun _ => not_at_nil) .nil)) .nil))

end Verif.Manager
