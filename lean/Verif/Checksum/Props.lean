import Verif.Checksum.Lemmas
import Verif.Handshake.Props
set_option linter.unusedSimpArgs false
/-!
# Property theorems: service-set checksum (C04)
-/
namespace Verif.Checksum
open Verif Verif.Handshake

theorem sorted_nil : Sorted [] := List.Pairwise.nil

/-- **C04** (order independence). The digest input does not depend on the iteration order of the two
maps, provided no two host prefixes carry the same service index — which `handshake_roundtrip` and
`handshake_limits_partial` guarantee of every parsed registration (next theorem). -/
theorem checksum_order_independent (ids ids' : AMap Bytes HostOpt) (ports ports' : AMap Nat TcpOpt)
    (hids : ids.Perm ids') (hports : ports.Perm ports')
    (hinj : ids.Pairwise (fun a b => a.2.serviceIndex ≠ b.2.serviceIndex))
    (hkeys : ports.keys.Nodup) :
    checksumInput ids ports = checksumInput ids' ports' := by
  have hinj' : ids'.Pairwise (fun a b => a.2.serviceIndex ≠ b.2.serviceIndex) :=
    hids.pairwise hinj (fun h => Ne.symm h)
  have hk : ports.Pairwise (fun a b => a.1 ≠ b.1) := by
    simpa [AMap.keys, List.Nodup, List.pairwise_map] using hkeys
  have hk' : ports'.Pairwise (fun a b => a.1 ≠ b.1) := hports.pairwise hk (fun h => Ne.symm h)
  unfold checksumInput
  congr 1
  unfold fillTree
  have a1 := foldl_put (fun e : Bytes × HostOpt => e.2.serviceIndex) (fun e => hostVal e.1 e.2) ids hinj [] sorted_nil
  have a2 := foldl_put (fun e : Bytes × HostOpt => e.2.serviceIndex) (fun e => hostVal e.1 e.2) ids' hinj' [] sorted_nil
  have e1 : ids.foldl (fun t e => treePut t e.2.serviceIndex (hostVal e.1 e.2)) [] =
      ids'.foldl (fun t e => treePut t e.2.serviceIndex (hostVal e.1 e.2)) [] := by
    apply sorted_ext a1.1 a2.1
    intro k
    rw [a1.2, a2.2, find?_perm hids (fun e => e.2.serviceIndex) hinj k]
  simp only
  rw [e1]
  have b1 := foldl_put (fun e : Nat × TcpOpt => e.1) (fun e => .port e.2) ports hk _ a2.1
  have b2 := foldl_put (fun e : Nat × TcpOpt => e.1) (fun e => .port e.2) ports' hk' _ a2.1
  apply sorted_ext b1.1 b2.1
  intro k
  rw [b1.2, b2.2, find?_perm hports (fun e => e.1) hk k]

/-- Every registration that describes a service list satisfies the hypothesis of
`checksum_order_independent`. -/
theorem registered_indices_distinct (reg : Reg) (withID : Bool) (id : Bytes) (svcs : List Service)
    (hd : reg.Describes withID id svcs) (hn : reg.ids.keys.Nodup) :
    reg.ids.Pairwise (fun a b => a.2.serviceIndex ≠ b.2.serviceIndex) := desc_index_inj hd hn

/-- **C04** (determinism): the digest input is a function of the list of services alone — the
concatenation, in service order, of each service's index and text. -/
theorem checksum_of_services (reg : Reg) (withID : Bool) (id : Bytes) (svcs : List Service)
    (hd : reg.Describes withID id svcs) (hn : reg.ids.keys.Nodup) (hp : reg.ports.keys.Nodup) :
    checksumInput reg.ids reg.ports = entriesBytes 0 (svcs.map (entry withID id)) := by
  unfold checksumInput
  rw [← entryTree_bytes]
  congr 1
  apply sorted_ext (fillTree_get hd hn hp 0).1 (entryTree_sorted _ _)
  intro k
  rw [(fillTree_get hd hn hp k).2, entryTree_get]
  simp
  rfl

/-- **C04** (partial: separation of different service sets). Two registrations with the same digest
input describe the same list of entries — provided both have at most 253 services and sane host
texts (nonempty, no bytes 0 or 1, plain HTTP prefixes not ending in "-tls"). Without the last
condition the claim is false, see `checksum_collision`. -/
theorem checksum_separates_partial (regA regB : Reg) (withID : Bool) (idA idB : Bytes)
    (svcsA svcsB : List Service)
    (hA : regA.Describes withID idA svcsA) (hB : regB.Describes withID idB svcsB)
    (hnA : regA.ids.keys.Nodup) (hpA : regA.ports.keys.Nodup)
    (hnB : regB.ids.keys.Nodup) (hpB : regB.ports.keys.Nodup)
    (hlA : svcsA.length ≤ 253) (hlB : svcsB.length ≤ 253)
    (hsA : ∀ s ∈ svcsA, (entry withID idA s).Sane) (hsB : ∀ s ∈ svcsB, (entry withID idB s).Sane)
    (h : checksumInput regA.ids regA.ports = checksumInput regB.ids regB.ports) :
    svcsA.map (entry withID idA) = svcsB.map (entry withID idB) := by
  rw [checksum_of_services regA withID idA svcsA hA hnA hpA,
    checksum_of_services regB withID idB svcsB hB hnB hpB] at h
  refine entriesBytes_inj _ _ ?_ ?_ (by simp; omega) (by simp; omega) h
  · intro e he; obtain ⟨s, hs, rfl⟩ := List.mem_map.mp he; exact hsA s hs
  · intro e he; obtain ⟨s, hs, rfl⟩ := List.mem_map.mp he; exact hsB s hs

/-- Non-vacuity: a two-service registration and its description. -/
example : Reg.Describes ⟨[(ascii "web", ⟨0, true⟩)], [(1, ⟨8022, false⟩)]⟩ false (ascii "abc")
    [⟨.https, ascii "web", 0, false⟩, ⟨.tcp, [], 8022, false⟩] := by
  constructor
  · intro p h
    obtain ⟨i, tls⟩ := h
    constructor
    · intro hg
      simp only [AMap.get] at hg
      split at hg
      · rename_i hp; simp at hg; obtain ⟨rfl, rfl⟩ := hg; subst hp
        exact ⟨_, rfl, rfl⟩
      · simp at hg
    · rintro ⟨s, hs, hh⟩
      match i with
      | 0 =>
        simp at hs; subst hs
        simp [Service.host?, show ¬ (ascii "web" = ascii "abc") by decide] at hh
        obtain ⟨rfl, rfl⟩ := hh; rfl
      | 1 => simp at hs; subst hs; simp [Service.host?] at hh
      | n + 2 => simp at hs
  · intro i t
    constructor
    · intro hg
      simp only [AMap.get] at hg
      split at hg
      · rename_i hp; simp at hg; subst hg; subst hp; exact ⟨_, rfl, rfl⟩
      · simp at hg
    · rintro ⟨s, hs, hh⟩
      match i with
      | 0 => simp at hs; subst hs; simp [Service.tcp?] at hh
      | 1 => simp at hs; subst hs; simp [Service.tcp?] at hh; subst hh; rfl
      | n + 2 => simp at hs

/-- Non-vacuity of the sanity hypotheses. -/
example : (Entry.host (ascii "web") true).Sane ∧ (Entry.tcp 8022 false).Sane ∧
    (Entry.host (ascii "blog") false).Sane := by
  refine ⟨⟨by decide, by decide, by simp⟩, (by simp [Entry.Sane]), ⟨by decide, by decide, fun _ => by decide⟩⟩

/-- **C04** (the separation claim is false of the code): a plain HTTP service with prefix `a-tls` and
an HTTPS service with prefix `a` are different registrations — the first serves `a-tls.example.com`
over HTTP, the second `a.example.com` over TLS — with the same digest input, hence the same checksum.
A client that reloads from one to the other is treated as unchanged. -/
theorem checksum_collision :
    ∃ inpA inpB regA regB,
      parseOptions ⟨600, 0, 0, [], false⟩ (ascii "id") inpA = some (.ok (regA, [])) ∧
      parseOptions ⟨600, 0, 0, [], false⟩ (ascii "id") inpB = some (.ok (regB, [])) ∧
      regA.ids.get (ascii "a") = none ∧ regB.ids.get (ascii "a") = some ⟨0, true⟩ ∧
      checksumInput regA.ids regA.ports = checksumInput regB.ids regB.ports :=
  ⟨[3, 5, 97, 45, 116, 108, 115], [5, 1, 97],
   ⟨[(ascii "a-tls", ⟨0, false⟩)], []⟩, ⟨[(ascii "a", ⟨0, true⟩)], []⟩, by decide⟩

end Verif.Checksum
