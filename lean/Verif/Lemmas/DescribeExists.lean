import Verif.Lemmas.Describe
import Mathlib.Logic.Equiv.Fintype

/-!
# Lemmas: every proper machine built by calls of the API is described by a legal hierarchy
-/

namespace LFM

open Spec

/-- a numbering with the elements of a finite set first -/
theorem exists_num (p : Nat → Prop) (n : Nat) (hp : ∀ i, p i → i < n) :
    ∃ (M : Nat) (num : Equiv.Perm Nat), ∀ i, i < M ↔ p (num i) := by
  classical
  obtain ⟨M, hM⟩ : ∃ M, M = Fintype.card {x : Fin n // p x} := ⟨_, rfl⟩
  have hle : M ≤ n := by
    rw [hM]
    exact (Fintype.card_subtype_le _).trans_eq (Fintype.card_fin n)
  have hc : Fintype.card {x : Fin n // (x : Nat) < M} = Fintype.card {x : Fin n // p x} := by
    rw [← hM, Fintype.card_subtype]
    have : (Finset.univ.filter fun x : Fin n => (x : Nat) < M) = Finset.univ.map (Fin.castLEEmb hle) := by
      ext x
      simp only [Finset.mem_filter, Finset.mem_univ, true_and, Finset.mem_map]
      constructor
      · intro hx
        exact ⟨⟨x, hx⟩, rfl⟩
      · rintro ⟨y, rfl⟩
        exact y.2
    rw [this, Finset.card_map, Finset.card_univ, Fintype.card_fin]
  obtain ⟨e⟩ : Nonempty ({x : Fin n // (x : Nat) < M} ≃ {x : Fin n // p x}) := ⟨Fintype.equivOfCardEq hc⟩
  refine ⟨M, e.extendSubtype.extendDomain Fin.equivSubtype, fun i => ?_⟩
  by_cases hi : i < n
  · have : e.extendSubtype.extendDomain Fin.equivSubtype i = (e.extendSubtype ⟨i, hi⟩ : Nat) := by
      rw [Equiv.Perm.extendDomain_apply_subtype e.extendSubtype (Fin.equivSubtype (n := n)) (b := i) hi]
      rfl
    rw [this]
    constructor
    · intro h
      exact e.extendSubtype_mem ⟨i, hi⟩ h
    · intro h
      by_contra h'
      exact e.extendSubtype_not_mem ⟨i, hi⟩ h' h
  · rw [Equiv.Perm.extendDomain_apply_not_subtype e.extendSubtype (Fin.equivSubtype (n := n)) (b := i) hi]
    constructor
    · intro h; omega
    · intro h; exact absurd (hp i h) hi

open Classical in
/-- the generic model with this name -/
noncomputable def lomNamed (name : String) : Lom8 := if h : ∃ lom : Lom8, name = lom.name then h.choose else .OR_AND

theorem lomNamed_name {name : String} (h : ∃ lom : Lom8, name = lom.name) : (lomNamed name).name = name := by
  rw [lomNamed, dif_pos h]
  exact h.choose_spec.symm

/-- layer `k` of a machine, in the numbers of a hierarchy -/
noncomputable def hlayerOf (s : Workshop) (num : Equiv.Perm Nat) (k : Nat) : HLayer :=
  let lr := s.m.layers[k]?.getD ⟨[], "", none, false, false⟩
  ⟨lomNamed lr.model, num.symm (lr.factors.getD 0 0), num.symm (lr.factors.getD 1 0), num.symm (s.child k),
    (s.m.world.lbda k).float?.getD 0, lr.factors[2]?.map num.symm⟩

/-- the hierarchy of a machine with factors `num 0`, ..., `num (M - 1)` -/
noncomputable def hierOf (s : Workshop) (num : Equiv.Perm Nat) (M : Nat) : Hier where
  M := M
  rows i := (s.m.world.mat (num i)).val.shape.getD 0 0
  cols i := (s.m.world.mat (num i)).val.shape.getD 1 0
  layers := (List.range s.m.layers.length).map (hlayerOf s num)
  data i := (s.m.world.mat (num i)).val
  prior i := s.m.bernoulli_prior (num i)

variable {s : Workshop} {num : Equiv.Perm Nat} {M : Nat}

theorem hlayerOf_eq {k : Nat} {lr : LayerInfo} (hk : s.m.layers[k]? = some lr) : hlayerOf s num k =
    ⟨lomNamed lr.model, num.symm (lr.factors.getD 0 0), num.symm (lr.factors.getD 1 0), num.symm (s.child k),
      (s.m.world.lbda k).float?.getD 0, lr.factors[2]?.map num.symm⟩ := by
  unfold hlayerOf
  rw [hk]
  rfl

theorem hlayerOf_factors {k : Nat} {lr : LayerInfo} (hk : s.m.layers[k]? = some lr)
    (ha : lr.factors.length = 2 ∨ lr.factors.length = 3) : (hlayerOf s num k).factors = lr.factors.map num.symm := by
  rw [hlayerOf_eq hk]
  rcases ha with h | h
  · obtain ⟨a, b, e⟩ := List.length_eq_two.mp h
    rw [e]; rfl
  · obtain ⟨a, b, c, e⟩ := List.length_eq_three.mp h
    rw [e]; rfl

theorem hierOf_layer {L : HLayer} (h : L ∈ (hierOf s num M).layers) :
    ∃ (k : Nat) (lr : LayerInfo), s.m.layers[k]? = some lr ∧ L = hlayerOf s num k := by
  obtain ⟨k, h1, rfl⟩ := List.mem_map.1 h
  exact ⟨k, _, List.getElem?_eq_getElem (List.mem_range.1 h1), rfl⟩

theorem hierOf_describes (H : s.Sound) (P : Proper s) (hnum : ∀ i, i < M ↔ s.m.layerOf (num i) ≠ none) :
    (hierOf s num M).Describes s num := by
  refine ⟨hnum, fun i hi => ?_, fun i _ => rfl, fun i _ => rfl, by simp [hierOf], fun k L hL => ?_⟩
  · obtain ⟨k, hk⟩ := Option.ne_none_iff_exists'.mp ((hnum i).1 hi)
    obtain ⟨-, lr, e1, e2⟩ := H.owner _ k hk
    obtain ⟨L', hL'⟩ := H.world.facs k lr e1
    have := (hL' _ (s.m.world.mat (num i)) (by rw [List.getElem?_map, (H.position e2).1]; rfl)).1
    show _ = [(s.m.world.mat (num i)).val.shape.getD 0 0, (s.m.world.mat (num i)).val.shape.getD 1 0]
    rw [this]
    rfl
  · have hL' : ((List.range s.m.layers.length).map (hlayerOf s num))[k]? = some L := hL
    rw [List.getElem?_map, Option.map_eq_some_iff] at hL'
    obtain ⟨k', h1, rfl⟩ := hL'
    obtain ⟨hk, h2⟩ := List.getElem?_eq_some_iff.1 h1
    rw [List.length_range] at hk
    rw [List.getElem_range] at h2
    subst h2
    have e := List.getElem?_eq_getElem hk
    refine ⟨_, e, ?_, ?_, ?_, ?_⟩
    · rw [hlayerOf_eq e]
      exact (lomNamed_name (H.model k _ e)).symm
    · rw [hlayerOf_factors e (P.arity k _ e), List.map_map]
      have : num ∘ num.symm = id := funext num.apply_symm_apply
      rw [this, List.map_id]
    · rw [hlayerOf_eq e]
      exact (num.apply_symm_apply _).symm
    · obtain ⟨y, hy⟩ := H.world.lbda k hk
      rw [hlayerOf_eq e, hy]
      rfl

/-- the factors of a layer, the shape of the matrix below and the shapes of the factors -/
theorem shapes_of (H : s.Sound) (P : Proper s) {k : Nat} {lr : LayerInfo} (e : s.m.layers[k]? = some lr) :
    (∃ a b N D L, lr.factors = [a, b] ∧ (s.m.world.mat (s.child k)).val.shape = [N, D] ∧
      (s.m.world.mat a).val.shape = [N, L] ∧ (s.m.world.mat b).val.shape = [D, L]) ∨
    ∃ a b c N D E L, lr.factors = [a, b, c] ∧ (s.m.world.mat (s.child k)).val.shape = [N, D, E] ∧
      (s.m.world.mat a).val.shape = [N, L] ∧ (s.m.world.mat b).val.shape = [D, L] ∧ (s.m.world.mat c).val.shape = [E, L] := by
  have hd := H.world.dims k lr e
  obtain ⟨L, hL⟩ := H.world.facs k lr e
  rcases P.arity k lr e with h | h
  · obtain ⟨a, b, hf⟩ := List.length_eq_two.mp h
    rw [h] at hd
    obtain ⟨N, D, hs⟩ := List.length_eq_two.mp hd
    rw [hf, hs] at hL
    exact .inl ⟨a, b, N, D, L, hf, hs, (hL 0 _ rfl).1, (hL 1 _ rfl).1⟩
  · obtain ⟨a, b, c, hf⟩ := List.length_eq_three.mp h
    rw [h] at hd
    obtain ⟨N, D, E, hs⟩ := List.length_eq_three.mp hd
    rw [hf, hs] at hL
    exact .inr ⟨a, b, c, N, D, E, L, hf, hs, (hL 0 _ rfl).1, (hL 1 _ rfl).1, (hL 2 _ rfl).1⟩

theorem hierOf_parents (N : s.Neat) (i : Nat) :
    (hierOf s num M).parentsOf i = (s.parents (num i)).map (hlayerOf s num) := by
  show ((List.range s.m.layers.length).map (hlayerOf s num)).filter (fun k => decide (k.child = i)) = _
  rw [List.filter_map, N.parents]
  congr 1
  refine List.filter_congr fun k hk => ?_
  rw [Function.comp_apply, hlayerOf_eq (List.getElem?_eq_getElem (List.mem_range.1 hk))]
  simp only [decide_eq_decide]
  exact num.symm_apply_eq

theorem hierOf_legal (H : s.Sound) (N : s.Neat) (P : Proper s) (hnum : ∀ i, i < M ↔ s.m.layerOf (num i) ≠ none) :
    (hierOf s num M).Legal := by
  have hrow : ∀ j, (hierOf s num M).rows (num.symm j) = (s.m.world.mat j).val.shape.getD 0 0 := fun j => by
    show (s.m.world.mat (num (num.symm j))).val.shape.getD 0 0 = _
    rw [num.apply_symm_apply]
  have hcol : ∀ j, (hierOf s num M).cols (num.symm j) = (s.m.world.mat j).val.shape.getD 1 0 := fun j => by
    show (s.m.world.mat (num (num.symm j))).val.shape.getD 1 0 = _
    rw [num.apply_symm_apply]
  have hdat : ∀ j, (hierOf s num M).data (num.symm j) = (s.m.world.mat j).val := fun j => by
    show (s.m.world.mat (num (num.symm j))).val = _
    rw [num.apply_symm_apply]
  have hlat : ∀ j, num.symm j < M ↔ s.m.layerOf j ≠ none := fun j => by rw [hnum, num.apply_symm_apply]
  have hval : ∀ (k : Nat) (lr : LayerInfo), s.m.layers[k]? = some lr → (hlayerOf s num k).v = none → lr.factors.length = 2 := by
    intro k lr e hv
    rcases P.arity k lr e with h | h
    · exact h
    · obtain ⟨a, b, c, hf⟩ := List.length_eq_three.mp h
      rw [hlayerOf_eq e, hf] at hv
      simp at hv
  have hval3 : ∀ (k : Nat) (lr : LayerInfo), s.m.layers[k]? = some lr → (hlayerOf s num k).v ≠ none → lr.factors.length = 3 := by
    intro k lr e hv
    rcases P.arity k lr e with h | h
    · obtain ⟨a, b, hf⟩ := List.length_eq_two.mp h
      rw [hlayerOf_eq e, hf] at hv
      simp at hv
    · exact h
  have hmem : ∀ (k : Nat) (lr : LayerInfo), s.m.layers[k]? = some lr → ∀ i ∈ (hlayerOf s num k).factors,
      num i ∈ lr.factors := by
    intro k lr e i hi
    rw [hlayerOf_factors e (P.arity k lr e)] at hi
    obtain ⟨j, hj, rfl⟩ := List.mem_map.1 hi
    rw [num.apply_symm_apply]
    exact hj
  refine ⟨fun i hi => N.prior _ ((hnum i).1 hi), ?_, ?_, ?_, ?_, ?_, ?_, ?_, ?_, ?_, ?_, ?_, ?_⟩
  · intro L hL i hi
    obtain ⟨k, lr, e, rfl⟩ := hierOf_layer hL
    show i < M
    rw [hnum, H.layerOf k lr _ e (hmem k lr e i hi)]
    simp
  · intro L hL hc
    obtain ⟨k, lr, e, rfl⟩ := hierOf_layer hL
    have := N.below k lr _ e (hmem k lr e _ hc)
    rw [hlayerOf_eq e] at this
    simp only [num.apply_symm_apply] at this
    omega
  · have : (hierOf s num M).layers.flatMap HLayer.factors = (s.m.layers.flatMap LayerInfo.factors).map num.symm := by
      rw [List.map_flatMap, List.flatMap_def, List.flatMap_def]
      congr 1
      refine List.ext_getElem? fun k => ?_
      show ((((List.range s.m.layers.length).map (hlayerOf s num)).map HLayer.factors))[k]? = _
      rw [List.getElem?_map, List.getElem?_map, List.getElem?_map]
      by_cases hk : k < s.m.layers.length
      · rw [List.getElem?_range hk]
        have e := List.getElem?_eq_getElem hk
        rw [e]
        exact congrArg some (hlayerOf_factors e (P.arity k _ e))
      · rw [List.getElem?_eq_none (by rw [List.length_range]; omega), List.getElem?_eq_none (l := s.m.layers) (by omega)]
        rfl
    rw [this]
    exact H.nodup_factors.map num.symm.injective
  · intro i hi
    obtain ⟨k, hk⟩ := Option.ne_none_iff_exists'.mp ((hnum i).1 hi)
    obtain ⟨-, lr, e1, e2⟩ := H.owner _ k hk
    refine ⟨hlayerOf s num k, List.mem_map_of_mem (List.mem_range.2 (List.getElem?_eq_some_iff.1 e1).1), ?_⟩
    rw [hlayerOf_factors e1 (P.arity k lr e1)]
    exact List.mem_map.2 ⟨num i, e2, num.symm_apply_apply i⟩
  · intro i hi
    obtain ⟨k, hk⟩ := Option.ne_none_iff_exists'.mp ((hnum i).1 hi)
    obtain ⟨-, lr, e1, e2⟩ := H.owner _ k hk
    obtain ⟨h1, -, h3⟩ := P.top k lr _ e1 e2
    rw [hierOf_parents N]
    refine ⟨by rw [List.length_map]; exact h1, ?_⟩
    intro a ha b hb
    obtain ⟨p, hp, rfl⟩ := List.mem_map.1 ha
    obtain ⟨p', hp', rfl⟩ := List.mem_map.1 hb
    have := h3 p hp p' hp'
    have q := List.getElem?_eq_getElem ((H.parents _ p).1 hp).1
    have q' := List.getElem?_eq_getElem ((H.parents _ p').1 hp').1
    rw [q, q'] at this
    rw [hlayerOf_eq q, hlayerOf_eq q']
    exact congrArg lomNamed (Option.some.inj this)
  · intro L hL hv
    obtain ⟨k, lr, e, rfl⟩ := hierOf_layer hL
    have h2 := hval k lr e hv
    have hk := (List.getElem?_eq_some_iff.1 e).1
    rcases shapes_of H P e with ⟨a, b, N', D, L, f1, f2, f3, f4⟩ | ⟨a, b, c, N', D, E, L, f1, -⟩
    · rw [hlayerOf_eq e, f1]
      simp only [List.getD_cons_zero, List.getD_cons_succ, hrow]
      rw [f3, f4]
      exact P.sizes2 k hk N' D f2
    · rw [f1] at h2; simp at h2
  · intro L hL hv
    obtain ⟨k, lr, e, rfl⟩ := hierOf_layer hL
    have h2 := hval k lr e hv
    rcases shapes_of H P e with ⟨a, b, N', D, L, f1, f2, f3, f4⟩ | ⟨a, b, c, N', D, E, L, f1, -⟩
    · rw [hlayerOf_eq e, f1]
      simp only [List.getD_cons_zero, List.getD_cons_succ, hrow, hcol]
      rw [f2, f3, f4]
      exact ⟨rfl, rfl, rfl⟩
    · rw [f1] at h2; simp at h2
  · intro L hL hv hc
    obtain ⟨k, lr, e, rfl⟩ := hierOf_layer hL
    have h2 := hval k lr e hv
    have hk := (List.getElem?_eq_some_iff.1 e).1
    rw [hlayerOf_eq e] at hc ⊢
    simp only [hrow, hcol, hdat]
    have hn : s.m.layerOf (s.child k) = none := by
      by_contra hn
      exact absurd ((hlat _).2 hn) (Nat.not_lt.2 hc)
    rcases shapes_of H P e with ⟨a, b, N', D, L, f1, f2, f3, f4⟩ | ⟨a, b, c, N', D, E, L, f1, -⟩
    · rw [f2]
      exact ⟨rfl, P.data k hk hn⟩
    · rw [f1] at h2; simp at h2
  · intro L hL v hv
    obtain ⟨k, lr, e, rfl⟩ := hierOf_layer hL
    have h3 := hval3 k lr e (by rw [hv]; simp)
    have hk := (List.getElem?_eq_some_iff.1 e).1
    rcases shapes_of H P e with ⟨a, b, N', D, L, f1, -⟩ | ⟨a, b, c, N', D, E, L, f1, f2, f3, f4, f5⟩
    · rw [f1] at h3; simp at h3
    · rw [hlayerOf_eq e, f1] at hv ⊢
      simp only [List.getElem?_cons_succ, List.getElem?_cons_zero, Option.map_some, Option.some.injEq] at hv
      subst hv
      simp only [List.getD_cons_zero, List.getD_cons_succ, hrow]
      rw [f3, f4, f5]
      exact P.sizes3 k hk N' D E f2
  · intro L hL v hv
    obtain ⟨k, lr, e, rfl⟩ := hierOf_layer hL
    have h3 := hval3 k lr e (by rw [hv]; simp)
    rcases shapes_of H P e with ⟨a, b, N', D, L, f1, -⟩ | ⟨a, b, c, N', D, E, L, f1, f2, f3, f4, f5⟩
    · rw [f1] at h3; simp at h3
    · rw [hlayerOf_eq e, f1] at hv ⊢
      simp only [List.getElem?_cons_succ, List.getElem?_cons_zero, Option.map_some, Option.some.injEq] at hv
      subst hv
      simp only [List.getD_cons_zero, List.getD_cons_succ, hcol]
      rw [f3, f4, f5]
      exact ⟨rfl, rfl⟩
  · intro L hL v hv
    obtain ⟨k, lr, e, rfl⟩ := hierOf_layer hL
    have h3 := hval3 k lr e (by rw [hv]; simp)
    have hk := (List.getElem?_eq_some_iff.1 e).1
    rcases shapes_of H P e with ⟨a, b, N', D, L, f1, -⟩ | ⟨a, b, c, N', D, E, L, f1, f2, f3, f4, f5⟩
    · rw [f1] at h3; simp at h3
    · rw [hlayerOf_eq e, f1] at hv ⊢
      simp only [List.getElem?_cons_succ, List.getElem?_cons_zero, Option.map_some, Option.some.injEq] at hv
      subst hv
      simp only [List.getD_cons_zero, List.getD_cons_succ, hrow, hdat]
      rw [f3, f4, f5]
      have hn : s.m.layerOf (s.child k) = none := by
        by_contra hn
        obtain ⟨k', hk'⟩ := Option.ne_none_iff_exists'.mp hn
        obtain ⟨-, lr', g1, g2⟩ := H.owner _ k' hk'
        obtain ⟨L', hL'⟩ := H.world.facs k' lr' g1
        have := (hL' _ (s.m.world.mat (s.child k)) (by rw [List.getElem?_map, (H.position g2).1]; rfl)).1
        rw [f2] at this
        simp at this
      refine ⟨?_, f2, P.data k hk hn⟩
      by_contra hlt
      exact (hlat _).1 (Nat.lt_of_not_le hlt) hn
  · intro L hL hv i hi
    obtain ⟨k, lr, e, rfl⟩ := hierOf_layer hL
    have h3 := hval3 k lr e hv
    rw [hierOf_parents N, (P.top k lr _ e (hmem k lr e i hi)).2.1 h3]
    rfl

end LFM
