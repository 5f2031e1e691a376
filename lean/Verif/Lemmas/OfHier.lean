import Verif.Props.Hier
import Verif.Spec.Samples

/-!
# Lemmas: every legal hierarchy is the hierarchy of a machine
-/

namespace LFM

open Spec

namespace Spec.Hier

variable (h : Hier)

/-- the machine of a hierarchy -/
noncomputable def wiringOf (perm : Nat → List Nat → List Nat) : Wiring where
  layers := h.layers.map fun L => ⟨L.factors, L.model.name, none, false, false⟩
  layerOf i := h.layers.findIdx? fun L => i ∈ L.factors
  childAxis i := ((h.layers.find? fun L => i ∈ L.factors).map fun L => L.factors.idxOf i).getD 0
  parents i := (List.range h.layers.length).filter fun k => (h.layers[k]?.map HLayer.child) = some i
  child k := (h.layers[k]?.map HLayer.child).getD 0
  beta_prior _ := (1, 1)
  rnd _ _ := fun _ => 0
  perm := perm
  junk _ _ _ _ := .nan
  junkSampling _ _ _ := .nan
  junkMat _ _ := 0
  special _ _ _ w := .ok w

/-- with fixed parameters -/
noncomputable def machOf (fe : Nat → Arr Int) (s : h.State) : Mach Sampler LbdaUpdate where
  layers := (h.wiringOf fun _ l => l).layers
  matrices := (h.layers.map HLayer.child).filter fun i => h.M ≤ i
  anneal := false
  world := h.world fe s
  fixed i := decide (h.M ≤ i)
  layerOf := (h.wiringOf fun _ l => l).layerOf
  bernoulli_prior := h.prior
  fct _ := none
  trace _ := none
  trace_index _ := 0
  lfixed _ := true
  lfct _ := none
  ltrace _ := none
  ltrace_index _ := 0
  burn_in_iters := none
  clock := 0

variable {h}

theorem findOwner (H : h.Legal) {k : Nat} {L : HLayer} (hL : h.layers[k]? = some L) {i : Nat} (hi : i ∈ L.factors) :
    h.layers.findIdx? (fun L => i ∈ L.factors) = some k ∧ h.layers.find? (fun L => i ∈ L.factors) = some L := by
  have hnd := H.nodup
  revert hnd k
  induction h.layers with
  | nil => intro k hL; simp at hL
  | cons L0 ls ih =>
    intro k hL hnd
    rw [List.flatMap_cons, List.nodup_append] at hnd
    obtain ⟨-, n2, n3⟩ := hnd
    match k with
    | 0 =>
      rw [List.getElem?_cons_zero, Option.some.injEq] at hL
      subst hL
      rw [List.findIdx?_cons, List.find?_cons]
      simp [hi]
    | k + 1 =>
      rw [List.getElem?_cons_succ] at hL
      have hmem : L ∈ ls := List.mem_of_getElem? hL
      have h0 : ¬ i ∈ L0.factors := by
        intro hc
        exact n3 i hc i (List.mem_flatMap.2 ⟨L, hmem, hi⟩) rfl
      obtain ⟨i1, i2⟩ := ih hL n2
      rw [List.findIdx?_cons, List.find?_cons, i1, i2]
      simp [h0]

theorem wiringOf_wired (H : h.Legal) (perm : Nat → List Nat → List Nat) : h.Wired (h.wiringOf perm) where
  length := by simp [wiringOf]
  layers k L hL := by
    refine ⟨⟨L.factors, L.model.name, none, false, false⟩, ?_, rfl, rfl, ?_, fun i hi => ⟨(findOwner H hL hi).1, ?_⟩⟩
    · simp [wiringOf, hL]
    · simp [wiringOf, hL]
    · simp only [wiringOf]
      rw [(findOwner H hL hi).2]
      rfl
  parents _ _ := rfl

theorem freeMats_machOf (H : h.Legal) (fe : Nat → Arr Int) (s : h.State) :
    freeMats (h.machOf fe s) = h.layers.flatMap HLayer.factors := by
  have e1 : members (h.machOf fe s) = (h.layers.flatMap HLayer.factors) ++
      (h.layers.map HLayer.child).filter fun i => h.M ≤ i := by
    simp only [members, machOf, wiringOf, List.flatMap_map]
    have : (h.layers.flatMap fun L => if L.model.name = "qL-AND" then (none : Option Nat).toList else []) = [] := by
      rw [List.flatMap_eq_nil_iff]
      intro L _
      split <;> rfl
    rw [this, List.append_nil]
  rw [freeMats, e1, List.filter_append]
  have e2 : ((h.layers.map HLayer.child).filter fun i => decide (h.M ≤ i)).filter (fun i => !(h.machOf fe s).fixed i) = [] := by
    rw [List.filter_eq_nil_iff]
    intro i hi
    rw [List.mem_filter] at hi
    simpa [machOf] using hi.2
  have e3 : (h.layers.flatMap HLayer.factors).filter (fun i => !(h.machOf fe s).fixed i) =
      h.layers.flatMap HLayer.factors := by
    rw [List.filter_eq_self]
    intro i hi
    rw [List.mem_flatMap] at hi
    obtain ⟨L, hL, hi⟩ := hi
    have : i < h.M := H.latent L hL i hi
    simpa [machOf] using this
  rw [e2, e3, List.append_nil]

theorem mem_freeMats_machOf (H : h.Legal) (fe : Nat → Arr Int) (s : h.State) (i : Nat) :
    i ∈ freeMats (h.machOf fe s) ↔ i < h.M := by
  rw [freeMats_machOf H, List.mem_flatMap]
  constructor
  · rintro ⟨L, hL, hi⟩
    exact H.latent L hL i hi
  · intro hi
    obtain ⟨L, hL, e⟩ := H.owner i hi
    exact ⟨L, hL, e⟩

theorem machOf_fixed (H : h.Legal) (perm : Nat → List Nat → List Nat) (fe : Nat → Arr Int) (s : h.State) :
    h.FixedLbdas (h.wiringOf perm) (h.machOf fe s) where
  layers := rfl
  layerOf := rfl
  prior _ _ := rfl
  lfixed _ _ := rfl
  anneal := rfl
  off lr hlr := by
    simp only [machOf, wiringOf, List.mem_map] at hlr
    obtain ⟨L, -, rfl⟩ := hlr
    exact ⟨rfl, rfl⟩
  fct _ _ hf := nomatch hf
  free i hi := (mem_freeMats_machOf H fe s i).1 hi
  nodup := by
    rw [freeMats_machOf H]
    exact H.nodup

end Spec.Hier

end LFM
