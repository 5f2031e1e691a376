import Verif.Spec.Relabel
import Verif.Lemmas.Relabel
import Mathlib.Data.List.GetD

/-!
# Lemmas: sums over the cells of selections and of transpositions
-/

namespace LFM

open Spec

theorem pred2_rows (lom : Lom8) (L : Nat) {z z' u u' : Nat → Int} (hz : ∀ l < L, z' l = z l) (hu : ∀ l < L, u' l = u l) :
    pred2 lom L z' u' = pred2 lom L z u := by
  unfold pred2
  refine pm_congr (iff_of_eq ?_)
  congr 1
  funext l k
  rw [hz l l.2, hu l l.2]

theorem pred3_rows (lom : Lom8) (L : Nat) {z z' u u' v v' : Nat → Int} (hz : ∀ l < L, z' l = z l) (hu : ∀ l < L, u' l = u l)
    (hv : ∀ l < L, v' l = v l) : pred3 lom L z' u' v' = pred3 lom L z u v := by
  unfold pred3
  refine pm_congr (iff_of_eq ?_)
  congr 1
  funext l k
  rw [hz l l.2, hu l l.2, hv l l.2]

/-- sums over the selected rows -/
theorem sum_selected {N : Nat} {k : List Nat} (hnd : k.Nodup) (hlt : ∀ n ∈ k, n < N) {g : Nat → Int}
    (h0 : ∀ n < N, n ∉ k → g n = 0) : ∑ n : Fin k.length, g (k.getD n 0) = ∑ n : Fin N, g n := by
  rw [Finset.sum_fin_eq_sum_range, Finset.sum_fin_eq_sum_range]
  have h1 : ∑ i ∈ Finset.range k.length, (if _h : i < k.length then g (k.getD i 0) else 0) =
      ∑ i ∈ Finset.range k.length, g (k.getD i 0) :=
    Finset.sum_congr rfl fun i hi => dif_pos (Finset.mem_range.mp hi)
  have h2 : ∑ i ∈ Finset.range N, (if _h : i < N then g i else 0) = ∑ i ∈ Finset.range N, g i :=
    Finset.sum_congr rfl fun i hi => dif_pos (Finset.mem_range.mp hi)
  rw [h1, h2]
  have h3 : ∑ i ∈ k.toFinset, g i = ∑ i ∈ Finset.range N, g i := by
    refine Finset.sum_subset (fun i hi => Finset.mem_range.mpr (hlt i (List.mem_toFinset.mp hi))) fun i hi hk => ?_
    exact h0 i (Finset.mem_range.mp hi) fun h => hk (List.mem_toFinset.mpr h)
  rw [← h3]
  refine Finset.sum_bij (fun i _ => k.getD i 0) ?_ ?_ ?_ fun _ _ => rfl
  · intro i hi
    have hi := Finset.mem_range.mp hi
    rw [List.mem_toFinset, List.getD_eq_getElem _ _ hi]
    exact List.getElem_mem hi
  · intro i hi j hj h
    have hi := Finset.mem_range.mp hi
    have hj := Finset.mem_range.mp hj
    rw [List.getD_eq_getElem _ _ hi, List.getD_eq_getElem _ _ hj] at h
    exact (List.Nodup.getElem_inj_iff hnd).mp h
  · intro i hi
    obtain ⟨j, hj, rfl⟩ := List.getElem_of_mem (List.mem_toFinset.mp hi)
    exact ⟨j, Finset.mem_range.mpr hj, List.getD_eq_getElem _ _ hj⟩

/-- row `n` of matrix `i` of the selection is this row of the whole -/
def kept (keep : List (List Nat)) (lr : LayerInfo) (i n : Nat) : Nat := (keep.getD (lr.factors.idxOf i) []).getD n 0

theorem Spec.Selects.corr {keep : List (List Nat)} {X : Arr Int} (h : Selects keep X) (lom : Lom8) {lr lr' : LayerInfo}
    (hlr : lr'.factors = lr.factors) (hnd : lr.factors.Nodup) (hK : lr.factors.length = 2 ∨ lr.factors.length = 3)
    {sizes : List Nat} (hX : X.shape = sizes) (hs : sizes.length = lr.factors.length) (L : Nat) :
    Corr lom lr lr' sizes (keep.map List.length) X (ix keep X) L (kept keep lr) := by
  have hpos : ∀ i ∈ lr.factors, ∃ k : List Nat, keep[lr.factors.idxOf i]? = some k ∧
      rowsOf lr' (keep.map List.length) i = k.length ∧ (∀ n, kept keep lr i n = k.getD n 0) := by
    intro i hi
    have h1 : lr.factors.idxOf i < keep.length := by
      rw [h.axes, hX, hs]; exact List.idxOf_lt_length_iff.mpr hi
    refine ⟨keep[lr.factors.idxOf i], List.getElem?_eq_getElem h1, ?_, ?_⟩
    · rw [rowsOf, hlr, List.getD_eq_getElem _ _ (by rw [List.length_map]; exact h1), List.getElem_map]
    · intro n
      rw [kept, List.getD_eq_getElem _ _ h1]
  refine ⟨by rw [hlr]; simp, ?_, ?_, ?_⟩
  · intro i hi n hn
    obtain ⟨k, k1, k2, k3⟩ := hpos i hi
    rw [k2] at hn
    rw [k3, rowsOf, ← hX, List.getD_eq_getElem _ _ hn]
    exact (h.rows _ k k1).2 _ (List.getElem_mem hn)
  · intro i hi a ha b hb hab
    obtain ⟨k, k1, k2, k3⟩ := hpos i hi
    rw [k2] at ha hb
    rw [k3, k3, List.getD_eq_getElem _ _ ha, List.getD_eq_getElem _ _ hb] at hab
    exact (List.Nodup.getElem_inj_iff (h.rows _ k k1).1).mp hab
  · intro φ hφ F F' hF
    rw [hlr]
    subst hX
    obtain ⟨sh, g⟩ := X
    simp only at hs
    rcases hK with hK | hK
    · obtain ⟨a, b, hab⟩ := List.length_eq_two.mp hK
      obtain ⟨N, D, rfl⟩ := List.length_eq_two.mp (hs.trans hK)
      obtain ⟨k0, k1, rfl⟩ := List.length_eq_two.mp (h.axes.trans (hs.trans hK))
      rw [hab] at hnd
      have hne : a ≠ b := by simpa using hnd
      have ia : lr.factors.idxOf a = 0 := by rw [hab]; simp
      have ib : lr.factors.idxOf b = 1 := by rw [hab]; simp [List.idxOf_cons, hne]
      have fa := hF a (by rw [hab]; simp)
      have fb := hF b (by rw [hab]; simp)
      simp only [rowsOf, hlr, ia, ib, kept, List.map_cons, List.map_nil, List.getD_cons_zero, List.getD_cons_succ, RowsOf] at fa fb
      obtain ⟨⟨fa1, -⟩, ⟨fa2, -⟩, fa3⟩ := fa
      obtain ⟨-, -, fb3⟩ := fb
      rw [hab]
      simp only [List.map_cons, List.map_nil, cellSum, Arr.dim, ix, List.getD_cons_zero, List.getD_cons_succ, fa1, fa2,
        List.zipWith_cons_cons, List.zipWith_nil_left]
      have r0 := h.rows 0 k0 rfl
      have r1 := h.rows 1 k1 rfl
      simp only [List.getD_cons_zero, List.getD_cons_succ] at r0 r1
      have hm : ∀ n < N, ∀ d < D, g [n, d] ≠ 0 → n ∈ k0 ∧ d ∈ k1 := by
        intro n hn d hd h0
        have := h.missing [n, d] ⟨hn, hd, trivial⟩ h0
        exact ⟨this 0 k0 rfl, this 1 k1 rfl⟩
      change ∑ n : Fin k0.length, ∑ d : Fin k1.length, φ (g [k0.getD n 0, k1.getD d 0])
        (pred2 lom L (fun l => F' a [n, l]) fun l => F' b [d, l]) =
        ∑ n : Fin N, ∑ d : Fin D, φ (g [n, d]) (pred2 lom L (fun l => F a [n, l]) fun l => F b [d, l])
      rw [← sum_selected (g := fun n => ∑ d : Fin D, φ (g [n, d]) (pred2 lom L (fun l => F a [n, l]) fun l => F b [d, l])) r0.1 r0.2]
      · refine Finset.sum_congr rfl fun n _ => ?_
        rw [← sum_selected (g := fun d => φ (g [k0.getD n 0, d]) (pred2 lom L (fun l => F a [k0.getD n 0, l]) fun l => F b [d, l]))
          r1.1 r1.2]
        · refine Finset.sum_congr rfl fun d _ => ?_
          rw [pred2_rows lom L (fun l hl => fa3 n n.2 l hl) (fun l hl => fb3 d d.2 l hl)]
        · intro d hd hk
          have : g [k0.getD n 0, d] = 0 := by
            by_contra h0
            have hn : k0.getD n 0 < N := by
              rw [List.getD_eq_getElem _ _ n.2]; exact r0.2 _ (List.getElem_mem _)
            exact hk (hm _ hn d hd h0).2
          rw [this, hφ]
      · intro n hn hk
        refine Finset.sum_eq_zero fun d _ => ?_
        have : g [n, d] = 0 := by
          by_contra h0
          exact hk (hm n hn d d.2 h0).1
        rw [this, hφ]
    · obtain ⟨a, b, c, hab⟩ := List.length_eq_three.mp hK
      obtain ⟨N, D, M, rfl⟩ := List.length_eq_three.mp (hs.trans hK)
      obtain ⟨k0, k1, k2, rfl⟩ := List.length_eq_three.mp (h.axes.trans (hs.trans hK))
      rw [hab] at hnd
      have hne : (a ≠ b ∧ a ≠ c) ∧ b ≠ c := by simpa using hnd
      obtain ⟨⟨n1, n2⟩, n3⟩ := hne
      have ia : lr.factors.idxOf a = 0 := by rw [hab]; simp
      have ib : lr.factors.idxOf b = 1 := by rw [hab]; simp [List.idxOf_cons, n1]
      have ic : lr.factors.idxOf c = 2 := by rw [hab]; simp [List.idxOf_cons, n2, n3]
      have fa := hF a (by rw [hab]; simp)
      have fb := hF b (by rw [hab]; simp)
      have fc := hF c (by rw [hab]; simp)
      simp only [rowsOf, hlr, ia, ib, ic, kept, List.map_cons, List.map_nil, List.getD_cons_zero, List.getD_cons_succ, RowsOf]
        at fa fb fc
      obtain ⟨⟨fa1, -⟩, ⟨fa2, -⟩, fa3⟩ := fa
      obtain ⟨-, -, fb3⟩ := fb
      obtain ⟨-, -, fc3⟩ := fc
      rw [hab]
      simp only [List.map_cons, List.map_nil, cellSum, Arr.dim, ix, List.getD_cons_zero, List.getD_cons_succ, fa1, fa2,
        List.zipWith_cons_cons, List.zipWith_nil_left]
      have r0 := h.rows 0 k0 rfl
      have r1 := h.rows 1 k1 rfl
      have r2 := h.rows 2 k2 rfl
      simp only [List.getD_cons_zero, List.getD_cons_succ] at r0 r1 r2
      have hm : ∀ n < N, ∀ d < D, ∀ e < M, g [n, d, e] ≠ 0 → n ∈ k0 ∧ d ∈ k1 ∧ e ∈ k2 := by
        intro n hn d hd e he h0
        have := h.missing [n, d, e] ⟨hn, hd, he, trivial⟩ h0
        exact ⟨this 0 k0 rfl, this 1 k1 rfl, this 2 k2 rfl⟩
      change ∑ n : Fin k0.length, ∑ d : Fin k1.length, ∑ e : Fin k2.length, φ (g [k0.getD n 0, k1.getD d 0, k2.getD e 0])
        (pred3 lom L (fun l => F' a [n, l]) (fun l => F' b [d, l]) fun l => F' c [e, l]) =
        ∑ n : Fin N, ∑ d : Fin D, ∑ e : Fin M, φ (g [n, d, e])
          (pred3 lom L (fun l => F a [n, l]) (fun l => F b [d, l]) fun l => F c [e, l])
      rw [← sum_selected (g := fun n => ∑ d : Fin D, ∑ e : Fin M, φ (g [n, d, e])
        (pred3 lom L (fun l => F a [n, l]) (fun l => F b [d, l]) fun l => F c [e, l])) r0.1 r0.2]
      · refine Finset.sum_congr rfl fun n _ => ?_
        have hn : k0.getD n 0 < N := by
          rw [List.getD_eq_getElem _ _ n.2]; exact r0.2 _ (List.getElem_mem _)
        rw [← sum_selected (g := fun d => ∑ e : Fin M, φ (g [k0.getD n 0, d, e])
          (pred3 lom L (fun l => F a [k0.getD n 0, l]) (fun l => F b [d, l]) fun l => F c [e, l])) r1.1 r1.2]
        · refine Finset.sum_congr rfl fun d _ => ?_
          have hd : k1.getD d 0 < D := by
            rw [List.getD_eq_getElem _ _ d.2]; exact r1.2 _ (List.getElem_mem _)
          rw [← sum_selected (g := fun e => φ (g [k0.getD n 0, k1.getD d 0, e])
            (pred3 lom L (fun l => F a [k0.getD n 0, l]) (fun l => F b [k1.getD d 0, l]) fun l => F c [e, l])) r2.1 r2.2]
          · refine Finset.sum_congr rfl fun e _ => ?_
            rw [pred3_rows lom L (fun l hl => fa3 n n.2 l hl) (fun l hl => fb3 d d.2 l hl) (fun l hl => fc3 e e.2 l hl)]
          · intro e he hk
            have : g [k0.getD n 0, k1.getD d 0, e] = 0 := by
              by_contra h0
              exact hk (hm _ hn _ hd e he h0).2.2
            rw [this, hφ]
        · intro d hd hk
          refine Finset.sum_eq_zero fun e _ => ?_
          have : g [k0.getD n 0, d, e] = 0 := by
            by_contra h0
            exact hk (hm _ hn d hd e e.2 h0).2.1
          rw [this, hφ]
      · intro n hn hk
        refine Finset.sum_eq_zero fun d _ => Finset.sum_eq_zero fun e _ => ?_
        have : g [n, d, e] = 0 := by
          by_contra h0
          exact hk (hm n hn d d.2 e e.2 h0).1
        rw [this, hφ]

theorem Spec.Selects.inB {keep : List (List Nat)} {sh : List Nat} (hl : keep.length = sh.length)
    (hr : ∀ j (k : List Nat), keep[j]? = some k → ∀ n ∈ k, n < sh.getD j 0) {idx : List Nat}
    (hi : InB (keep.map List.length) idx) : InB sh (List.zipWith (fun (k : List Nat) n => k.getD n 0) keep idx) := by
  induction keep generalizing sh idx with
  | nil =>
    obtain rfl : sh = [] := List.length_eq_zero_iff.mp hl.symm
    trivial
  | cons k keep ih =>
    match sh, idx, hl, hi with
    | N :: sh, n :: idx, hl, hi =>
      obtain ⟨h1, h2⟩ := hi
      rw [List.zipWith_cons_cons]
      refine ⟨?_, ih (by simpa using hl) (fun j k hk n hn => by have := hr (j + 1) k hk n hn; simpa using this) h2⟩
      rw [List.getD_eq_getElem _ _ h1]
      simpa using hr 0 k rfl _ (List.getElem_mem h1)

theorem Spec.Selects.data {keep : List (List Nat)} {X : Arr Int} (h : Selects keep X) (hd : DataArr X) : DataArr (ix keep X) :=
  fun _ hidx => hd _ (Selects.inB h.axes (fun j k hk => (h.rows j k hk).2) hidx)

theorem length_le_of_nodup {k : List Nat} {N : Nat} (h : k.Nodup) (hlt : ∀ n ∈ k, n < N) : k.length ≤ N := by
  have := (List.subperm_of_subset h (fun n hn => List.mem_range.mpr (hlt n hn))).length_le
  simpa using this

theorem Spec.Selects.fit {keep : List (List Nat)} {X : Arr Int} (h : Selects keep X) (hf : ScoresFit X.shape) :
    ScoresFit (keep.map List.length) := by
  have hle : ∀ j (k : List Nat), keep[j]? = some k → k.length ≤ X.shape.getD j 0 := fun j k hk =>
    length_le_of_nodup (h.rows j k hk).1 (h.rows j k hk).2
  have hax := h.axes
  match hX : X.shape with
  | [] => rw [hX] at hf; exact hf.elim
  | [_] => rw [hX] at hf; exact hf.elim
  | [N, D] =>
    rw [hX] at hax hf hle
    obtain ⟨k0, k1, rfl⟩ := List.length_eq_two.mp hax
    have h0 := hle 0 k0 rfl
    have h1 := hle 1 k1 rfl
    simp only [List.getD_cons_zero, List.getD_cons_succ] at h0 h1
    exact ⟨h0.trans hf.1, h1.trans hf.2⟩
  | [N, D, M] =>
    rw [hX] at hax hf hle
    obtain ⟨k0, k1, k2, rfl⟩ := List.length_eq_three.mp hax
    have h0 := hle 0 k0 rfl
    have h1 := hle 1 k1 rfl
    have h2 := hle 2 k2 rfl
    simp only [List.getD_cons_zero, List.getD_cons_succ] at h0 h1 h2
    exact ⟨(Nat.mul_le_mul h1 h2).trans_lt hf.1, (Nat.mul_le_mul h0 h2).trans_lt hf.2.1, (Nat.mul_le_mul h0 h1).trans_lt hf.2.2⟩
  | _ :: _ :: _ :: _ :: _ => rw [hX] at hf; exact hf.elim

theorem Spec.Reorders.selects {keep : List (List Nat)} {X : Arr Int} (h : Reorders keep X) : Selects keep X := by
  refine ⟨h.1, fun j k hk => ⟨(h.2 j k hk).nodup_iff.mpr List.nodup_range, fun n hn => ?_⟩, fun idx hidx _ j k hk => ?_⟩
  · exact List.mem_range.mp ((h.2 j k hk).mem_iff.mp hn)
  · rw [(h.2 j k hk).mem_iff, List.mem_range]
    obtain ⟨hj, -⟩ := List.getElem?_eq_some_iff.mp hk
    exact InB.getD (k := j) hidx (by rw [← h.1]; exact hj)

theorem Spec.Reorders.sizes {keep : List (List Nat)} {X : Arr Int} (h : Reorders keep X) : keep.map List.length = X.shape := by
  refine List.ext_getElem (by simpa using h.1) fun j h1 h2 => ?_
  rw [List.length_map] at h1
  rw [List.getElem_map]
  have := (h.2 j _ (List.getElem?_eq_getElem h1)).length_eq
  rw [this, List.length_range, List.getD_eq_getElem _ _ h2]

/-! ## Transpositions -/

theorem perms2 {axes : List Nat} (h : axes.Perm (List.range 2)) : axes = [0, 1] ∨ axes = [1, 0] := by
  have := List.mem_permutations.mpr h
  simpa [List.range_succ, List.permutations, List.permutationsAux, List.permutationsAux.rec, List.permutationsAux2] using this

theorem perms3 {axes : List Nat} (h : axes.Perm (List.range 3)) : axes = [0, 1, 2] ∨ axes = [0, 2, 1] ∨ axes = [1, 0, 2] ∨
    axes = [1, 2, 0] ∨ axes = [2, 0, 1] ∨ axes = [2, 1, 0] := by
  have hl := h.length_eq
  obtain ⟨a, b, c, rfl⟩ := List.length_eq_three.mp hl
  have ha := List.mem_range.mp (h.mem_iff.mp (List.mem_cons_self : a ∈ [a, b, c]))
  have hb := List.mem_range.mp (h.mem_iff.mp (by simp : b ∈ [a, b, c]))
  have hc := List.mem_range.mp (h.mem_iff.mp (by simp : c ∈ [a, b, c]))
  have hnd := h.nodup_iff.mpr List.nodup_range
  simp only [List.nodup_cons, List.mem_cons, List.not_mem_nil, or_false, not_or, not_false_eq_true, List.nodup_nil, and_true] at hnd
  simp only [List.cons.injEq, and_true]
  omega

theorem transposed_corr {axes : List Nat} {X : Arr Int} (lom : Lom8) {lr lr' : LayerInfo}
    (hp : axes.Perm (List.range X.shape.length)) (hlr : lr'.factors = axes.map fun a => lr.factors.getD a 0)
    (hnd : lr.factors.Nodup) (hK : lr.factors.length = 2 ∨ lr.factors.length = 3)
    {sizes : List Nat} (hX : X.shape = sizes) (hs : sizes.length = lr.factors.length) (L : Nat) :
    Corr lom lr lr' sizes (axes.map fun a => sizes.getD a 0) X (transposed axes X) L (fun _ n => n) := by
  have hlen : axes.length = lr.factors.length := by rw [hp.length_eq, List.length_range, hX, hs]
  have hmem : ∀ a ∈ axes, a < lr.factors.length := by
    intro a ha
    have := List.mem_range.mp (hp.mem_iff.mp ha)
    rwa [hX, hs] at this
  have hrow : ∀ i ∈ lr.factors, i ∈ lr'.factors ∧ rowsOf lr' (axes.map fun a => sizes.getD a 0) i = rowsOf lr sizes i := by
    intro i hi
    have h1 := List.idxOf_lt_length_iff.mpr hi
    have h2 : lr.factors.idxOf i ∈ axes := by
      rw [hp.mem_iff, List.mem_range, hX, hs]; exact h1
    obtain ⟨j, hj, hja⟩ := List.getElem_of_mem h2
    have hj' : j < lr'.factors.length := by rw [hlr, List.length_map]; exact hj
    have h3 : lr'.factors[j] = i := by
      simp only [hlr, List.getElem_map, hja]
      rw [List.getD_eq_getElem _ _ h1, List.getElem_idxOf]
    have hnd' : lr'.factors.Nodup := by
      rw [hlr]
      refine (hp.nodup_iff.mpr List.nodup_range).map_on fun a ha b hb hab => ?_
      rw [List.getD_eq_getElem _ _ (hmem a ha), List.getD_eq_getElem _ _ (hmem b hb)] at hab
      exact (List.Nodup.getElem_inj_iff hnd).mp hab
    have h4 : lr'.factors.idxOf i = j := by rw [← h3]; exact hnd'.idxOf_getElem j hj'
    refine ⟨h3 ▸ List.getElem_mem hj', ?_⟩
    rw [rowsOf, rowsOf, h4, List.getD_eq_getElem _ _ (by rw [List.length_map]; exact hj), List.getElem_map, hja]
  refine ⟨fun i => ⟨fun hi => ?_, fun hi => (hrow i hi).1⟩, fun i hi n hn => (hrow i hi).2 ▸ hn, fun _ _ _ _ _ _ h => h, ?_⟩
  · rw [hlr, List.mem_map] at hi
    obtain ⟨a, ha, rfl⟩ := hi
    rw [List.getD_eq_getElem _ _ (hmem a ha)]
    exact List.getElem_mem _
  intro φ hφ F F' hF
  have hF' : ∀ i ∈ lr.factors, (F i).dim 1 = L ∧ (F' i).dim 1 = L ∧
      ∀ n < rowsOf lr sizes i, ∀ l < L, F' i [n, l] = F i [n, l] := by
    intro i hi
    obtain ⟨⟨f1, -⟩, ⟨f2, -⟩, f3⟩ := hF i hi
    refine ⟨by simp [Arr.dim, f1], by simp [Arr.dim, f2], ?_⟩
    rw [(hrow i hi).2] at f3
    exact f3
  subst hX
  obtain ⟨sh, g⟩ := X
  simp only at hs hp
  rcases hK with hK | hK
  · obtain ⟨a, b, hab⟩ := List.length_eq_two.mp hK
    obtain ⟨N, D, rfl⟩ := List.length_eq_two.mp (hs.trans hK)
    rw [hab] at hnd hlr
    have hne : a ≠ b := by simpa using hnd
    have ia : lr.factors.idxOf a = 0 := by rw [hab]; simp
    have ib : lr.factors.idxOf b = 1 := by rw [hab]; simp [hne]
    obtain ⟨fa1, fa2, fa3⟩ := hF' a (by rw [hab]; simp)
    obtain ⟨fb1, fb2, fb3⟩ := hF' b (by rw [hab]; simp)
    simp only [rowsOf, ia, ib, List.getD_cons_zero, List.getD_cons_succ] at fa3 fb3
    have e : ∀ (n : Fin N) (d : Fin D), pred2 lom L (fun l => F' a [n, l]) (fun l => F' b [d, l]) =
        pred2 lom L (fun l => F a [n, l]) fun l => F b [d, l] :=
      fun n d => pred2_rows lom L (fa3 n n.2) (fb3 d d.2)
    rw [hlr, hab]
    rcases perms2 hp with rfl | rfl
    · simp only [List.map_cons, List.map_nil, List.getD_cons_zero, List.getD_cons_succ, cellSum, fa1, fa2]
      change ∑ n : Fin N, ∑ d : Fin D, φ (g [n, d]) _ = ∑ n : Fin N, ∑ d : Fin D, φ (g [n, d]) _
      simp only [e]
    · simp only [List.map_cons, List.map_nil, List.getD_cons_zero, List.getD_cons_succ, cellSum, fa1, fb2]
      change ∑ d : Fin D, ∑ n : Fin N, φ (g [n, d]) (pred2 lom L (fun l => F' b [d, l]) fun l => F' a [n, l]) =
        ∑ n : Fin N, ∑ d : Fin D, φ (g [n, d]) _
      rw [Finset.sum_comm]
      simp only [pred2_comm lom L (fun l => F' b [_, l]), e]
  · obtain ⟨a, b, c, hab⟩ := List.length_eq_three.mp hK
    obtain ⟨N, D, M, rfl⟩ := List.length_eq_three.mp (hs.trans hK)
    rw [hab] at hnd hlr
    have hne : (a ≠ b ∧ a ≠ c) ∧ b ≠ c := by simpa using hnd
    obtain ⟨⟨n1, n2⟩, n3⟩ := hne
    have ia : lr.factors.idxOf a = 0 := by rw [hab]; simp
    have ib : lr.factors.idxOf b = 1 := by rw [hab]; simp [n1]
    have ic : lr.factors.idxOf c = 2 := by rw [hab]; simp [n2, n3]
    obtain ⟨fa1, fa2, fa3⟩ := hF' a (by rw [hab]; simp)
    obtain ⟨fb1, fb2, fb3⟩ := hF' b (by rw [hab]; simp)
    obtain ⟨fc1, fc2, fc3⟩ := hF' c (by rw [hab]; simp)
    simp only [rowsOf, ia, ib, ic, List.getD_cons_zero, List.getD_cons_succ] at fa3 fb3 fc3
    obtain ⟨z, hz⟩ : ∃ z : Nat → Nat → Int, z = fun n l => F' a [n, l] := ⟨_, rfl⟩
    obtain ⟨u, hu⟩ : ∃ u : Nat → Nat → Int, u = fun n l => F' b [n, l] := ⟨_, rfl⟩
    obtain ⟨v, hv⟩ : ∃ v : Nat → Nat → Int, v = fun n l => F' c [n, l] := ⟨_, rfl⟩
    have e : ∑ n : Fin N, ∑ d : Fin D, ∑ k : Fin M, φ (g [n, d, k]) (pred3 lom L (fun l => F a [n, l])
        (fun l => F b [d, l]) fun l => F c [k, l]) =
        ∑ n : Fin N, ∑ d : Fin D, ∑ k : Fin M, φ (g [n, d, k]) (pred3 lom L (z n) (u d) (v k)) := by
      refine Finset.sum_congr rfl fun n _ => Finset.sum_congr rfl fun d _ => Finset.sum_congr rfl fun k _ => ?_
      rw [hz, hu, hv, pred3_rows lom L (fa3 n n.2) (fb3 d d.2) (fc3 k k.2)]
    have hR : cellSum lom φ ([a, b, c].map F) ⟨[N, D, M], g⟩ =
        ∑ n : Fin N, ∑ d : Fin D, ∑ k : Fin M, φ (g [n, d, k]) (pred3 lom L (z n) (u d) (v k)) := by
      rw [← e]
      simp only [List.map_cons, List.map_nil, cellSum, fa1]
      rfl
    rw [hlr, hab, hR]
    have s1 := pred3_swap01 lom L
    have s2 := pred3_rot lom L
    rcases perms3 hp with rfl | rfl | rfl | rfl | rfl | rfl
    · simp only [List.map_cons, List.map_nil, List.getD_cons_zero, List.getD_cons_succ, cellSum, fa2, hz, hu, hv]
      rfl
    · simp only [List.map_cons, List.map_nil, List.getD_cons_zero, List.getD_cons_succ, cellSum, fa2]
      change ∑ n : Fin N, ∑ k : Fin M, ∑ d : Fin D, φ (g [n, d, k]) (pred3 lom L (fun l => F' a [n, l]) (fun l => F' c [k, l])
        fun l => F' b [d, l]) = _
      refine Finset.sum_congr rfl fun n _ => ?_
      rw [Finset.sum_comm]
      refine Finset.sum_congr rfl fun d _ => Finset.sum_congr rfl fun k _ => ?_
      rw [hz, hu, hv, s1, s2]
    · simp only [List.map_cons, List.map_nil, List.getD_cons_zero, List.getD_cons_succ, cellSum, fb2]
      change ∑ d : Fin D, ∑ n : Fin N, ∑ k : Fin M, φ (g [n, d, k]) (pred3 lom L (fun l => F' b [d, l]) (fun l => F' a [n, l])
        fun l => F' c [k, l]) = _
      rw [Finset.sum_comm]
      refine Finset.sum_congr rfl fun n _ => Finset.sum_congr rfl fun d _ => Finset.sum_congr rfl fun k _ => ?_
      rw [hz, hu, hv, s1]
    · simp only [List.map_cons, List.map_nil, List.getD_cons_zero, List.getD_cons_succ, cellSum, fb2]
      change ∑ d : Fin D, ∑ k : Fin M, ∑ n : Fin N, φ (g [n, d, k]) (pred3 lom L (fun l => F' b [d, l]) (fun l => F' c [k, l])
        fun l => F' a [n, l]) = _
      have : ∀ d : Fin D, ∑ k : Fin M, ∑ n : Fin N, φ (g [n, d, k]) (pred3 lom L (fun l => F' b [d, l]) (fun l => F' c [k, l])
        fun l => F' a [n, l]) = ∑ n : Fin N, ∑ k : Fin M, φ (g [n, d, k]) (pred3 lom L (fun l => F' b [d, l]) (fun l => F' c [k, l])
        fun l => F' a [n, l]) := fun d => Finset.sum_comm
      simp only [this]
      rw [Finset.sum_comm]
      refine Finset.sum_congr rfl fun n _ => Finset.sum_congr rfl fun d _ => Finset.sum_congr rfl fun k _ => ?_
      rw [hz, hu, hv, ← s2]
    · simp only [List.map_cons, List.map_nil, List.getD_cons_zero, List.getD_cons_succ, cellSum, fc2]
      change ∑ k : Fin M, ∑ n : Fin N, ∑ d : Fin D, φ (g [n, d, k]) (pred3 lom L (fun l => F' c [k, l]) (fun l => F' a [n, l])
        fun l => F' b [d, l]) = _
      rw [Finset.sum_comm]
      refine Finset.sum_congr rfl fun n _ => ?_
      rw [Finset.sum_comm]
      refine Finset.sum_congr rfl fun d _ => Finset.sum_congr rfl fun k _ => ?_
      rw [hz, hu, hv, s2]
    · simp only [List.map_cons, List.map_nil, List.getD_cons_zero, List.getD_cons_succ, cellSum, fc2]
      change ∑ k : Fin M, ∑ d : Fin D, ∑ n : Fin N, φ (g [n, d, k]) (pred3 lom L (fun l => F' c [k, l]) (fun l => F' b [d, l])
        fun l => F' a [n, l]) = _
      have : ∀ k : Fin M, ∑ d : Fin D, ∑ n : Fin N, φ (g [n, d, k]) (pred3 lom L (fun l => F' c [k, l]) (fun l => F' b [d, l])
        fun l => F' a [n, l]) = ∑ n : Fin N, ∑ d : Fin D, φ (g [n, d, k]) (pred3 lom L (fun l => F' c [k, l]) (fun l => F' b [d, l])
        fun l => F' a [n, l]) := fun k => Finset.sum_comm
      simp only [this]
      rw [Finset.sum_comm]
      refine Finset.sum_congr rfl fun n _ => ?_
      rw [Finset.sum_comm]
      refine Finset.sum_congr rfl fun d _ => Finset.sum_congr rfl fun k _ => ?_
      rw [hz, hu, hv, s2, s1]

theorem inB_of_getD {sh : List Nat} : ∀ {idx : List Nat}, idx.length = sh.length → (∀ a < sh.length, idx.getD a 0 < sh.getD a 0) →
    InB sh idx := by
  induction sh with
  | nil => intro idx hl _; rw [List.length_eq_zero_iff.mp hl]; trivial
  | cons N sh ih =>
    intro idx hl h
    match idx, hl with
    | n :: idx, hl =>
      exact ⟨by simpa using h 0 (by simp), ih (by simpa using hl) fun a ha => by simpa using h (a + 1) (by simpa using ha)⟩

theorem transposed_data {axes : List Nat} {X : Arr Int} (hp : axes.Perm (List.range X.shape.length)) (hd : DataArr X) :
    DataArr (transposed axes X) := by
  intro idx hidx
  refine hd _ ?_
  have hlen : axes.length = X.shape.length := by rw [hp.length_eq, List.length_range]
  refine inB_of_getD (by simp [hlen]) fun a ha => ?_
  have h1 : a ∈ axes := by rw [hp.mem_iff, List.mem_range]; exact ha
  have h2 := List.idxOf_lt_length_iff.mpr h1
  have := InB.getD (k := axes.idxOf a) hidx (by simpa [transposed] using h2)
  simp only [transposed] at this
  rw [List.getD_eq_getElem (axes.map _) _ (by rw [List.length_map]; exact h2), List.getElem_map, List.getElem_idxOf] at this
  rw [List.getD_eq_getElem _ _ (by simpa [hlen] using ha), List.getElem_map, List.getElem_range]
  exact this

theorem transposed_fit {axes : List Nat} {X : Arr Int} (hp : axes.Perm (List.range X.shape.length)) (hf : ScoresFit X.shape) :
    ScoresFit (axes.map fun a => X.shape.getD a 0) := by
  match hX : X.shape with
  | [] => rw [hX] at hf; exact hf.elim
  | [_] => rw [hX] at hf; exact hf.elim
  | [N, D] =>
    rw [hX] at hf hp
    rcases perms2 hp with rfl | rfl
    · exact hf
    · exact ⟨hf.2, hf.1⟩
  | [N, D, M] =>
    rw [hX] at hf hp
    obtain ⟨h1, h2, h3⟩ := hf
    rcases perms3 hp with rfl | rfl | rfl | rfl | rfl | rfl <;>
      simp only [List.map_cons, List.map_nil, List.getD_cons_zero, List.getD_cons_succ, ScoresFit] <;>
      refine ⟨?_, ?_, ?_⟩ <;> first | assumption | (rw [Nat.mul_comm]; assumption)
  | _ :: _ :: _ :: _ :: _ => rw [hX] at hf; exact hf.elim

end LFM
