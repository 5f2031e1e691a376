import Verif.Props.LargeStrengthPrior
import Verif.Props.Consistent

/-!
# C142: data that can be described exactly
-/

namespace LFM

open Spec MeasureTheory

namespace Spec.Hier

variable (h : Hier)

/-- layer `k` (two factors) predicts all observed cells of its data in state `s` -/
def ReproducesAll (k : HLayer) (s : h.State) : Prop := ∀ n < h.rows k.child, ∀ d < h.cols k.child, h.data k.child [n, d] ≠ 0 →
  pred2 k.model (h.cols k.z) (h.val s k.z n) (h.val s k.u d) = h.data k.child [n, d]

end Spec.Hier

/-- **C142**: if some state with the same fixed entries reproduces the data, the best fits are the states that do -/
theorem C142_perfect {h : Hier} {k : HLayer} (hkv : k.v = none) {free : h.Site → Prop} {b x : h.State} (hb : h.Agree free b x)
    (hfit : h.ReproducesAll k b) : h.BestFit k free x ↔ h.ReproducesAll k x := by
  classical
  have e : ∀ s, h.hits k s = (Finset.univ.filter fun i : Fin (h.rows k.child) × Fin (h.cols k.child) =>
      h.data k.child [i.1, i.2] = pred2 k.model (h.cols k.z) (h.val s k.z i.1) (h.val s k.u i.2)).card := by
    intro s
    unfold Spec.Hier.hits
    rw [hkv]
    simp only [correct2]
  have hsub : ∀ s s', h.ReproducesAll k s' → (Finset.univ.filter fun i : Fin (h.rows k.child) × Fin (h.cols k.child) =>
      h.data k.child [i.1, i.2] = pred2 k.model (h.cols k.z) (h.val s k.z i.1) (h.val s k.u i.2)) ⊆
      Finset.univ.filter fun i : Fin (h.rows k.child) × Fin (h.cols k.child) =>
        h.data k.child [i.1, i.2] = pred2 k.model (h.cols k.z) (h.val s' k.z i.1) (h.val s' k.u i.2) := by
    intro s s' hs' i hi
    simp only [Finset.mem_filter, Finset.mem_univ, true_and] at hi ⊢
    refine (hs' i.1 i.1.2 i.2 i.2.2 fun h0 => ?_).symm
    rw [h0] at hi
    rcases isPM_pred2 k.model (h.cols k.z) (h.val s k.z i.1) (h.val s k.u i.2) with h1 | h1 <;> rw [h1] at hi <;> omega
  constructor
  · intro hbest n hn d hd h0
    have hle := hbest b hb
    rw [e, e] at hle
    have heq := Finset.eq_of_subset_of_card_le (hsub x b hfit) hle
    have hmem : ((⟨n, hn⟩, ⟨d, hd⟩) : Fin (h.rows k.child) × Fin (h.cols k.child)) ∈ Finset.univ.filter
        fun i : Fin (h.rows k.child) × Fin (h.cols k.child) =>
          h.data k.child [i.1, i.2] = pred2 k.model (h.cols k.z) (h.val b k.z i.1) (h.val b k.u i.2) :=
      Finset.mem_filter.2 ⟨Finset.mem_univ _, (hfit n hn d hd h0).symm⟩
    rw [← heq] at hmem
    exact (Finset.mem_filter.1 hmem).2.symm
  · intro hx y _
    rw [e, e]
    exact Finset.card_le_card (hsub y x hx)

open Classical in
/-- **C142**: if the data can be described exactly (by a state `b` with the same fixed entries), the posterior probability that the
factors reproduce all observed cells is at least one minus `exp (-λ)` divided by the prior probability of `b` given what is fixed -/
theorem C142_reproduced {h : Hier} (H : h.Legal) {k : HLayer} (hk : h.layers = [k]) (hkv : k.v = none) (hl : 0 ≤ k.lbda)
    (free : h.Site → Prop) (s0 b : h.State) (hb : h.Agree free b s0) (hfit : h.ReproducesAll k b) :
    1 - Real.exp (-k.lbda) / (h.priorOf b / ∑ x with h.Agree free x s0, h.priorOf x) ≤
      ∑ x, h.posteriorGiven free s0 x * (if h.ReproducesAll k x then 1 else 0) := by
  have h1 := C142_any_prior H hk hl free s0 b hb ((C142_perfect hkv (fun _ _ => rfl) hfit).2 hfit)
  have h2 := Spec.Hier.posteriorGiven_sum H free s0
  have h3 : ∑ x, h.posteriorGiven free s0 x * (if h.ReproducesAll k x then 1 else 0) +
      ∑ x, h.posteriorGiven free s0 x * (if h.BestFit k free x then 0 else 1) = 1 := by
    rw [← Finset.sum_add_distrib]
    refine Eq.trans ?_ h2
    refine Finset.sum_congr rfl fun x _ => ?_
    by_cases ha : h.Agree free x s0
    · rw [if_congr (C142_perfect hkv (fun q hq => by rw [hb q hq, ha q hq]) hfit : h.BestFit k free x ↔ _) rfl rfl]
      split <;> ring
    · simp [Spec.Hier.posteriorGiven, ha]
  linarith

/-- the 2 x 2 identity matrix is reproduced by two identity matrices: the hypotheses are met -/
theorem C142_reproduced_hypotheses_met : sparseHier.Legal ∧ ∃ k, sparseHier.layers = [k] ∧ k.v = none ∧ 0 ≤ k.lbda ∧
    ∃ b, sparseHier.ReproducesAll k b ∧ ∃ x, ¬ sparseHier.ReproducesAll k x := by
  have hv : ∀ (f : Bool → Bool → Bool) (i : Nat), i < 2 → ∀ n < 2, ∀ l < 2,
      sparseHier.val (fun _ e => f (e.1.1 = 0) (e.2.1 = 0)) i n l = sgn (f (n = 0) (l = 0)) := by
    intro f i hi n hn l hl
    unfold Spec.Hier.val
    rw [dif_pos (show i < sparseHier.M from hi)]
    unfold Cfg.fac
    rw [dif_pos ⟨hn, hl⟩]
  refine ⟨sparseHier_legal, _, rfl, rfl, zero_le_one, (fun _ e => decide (e.1.1 = 0) == decide (e.2.1 = 0)), ?_, (fun _ _ => true), ?_⟩
  · intro n hn d hd _
    have hn' : n < 2 := hn
    have hd' : d < 2 := hd
    have key : pred2 .OR_AND 2 (sparseHier.val (fun _ e => decide (e.1.1 = 0) == decide (e.2.1 = 0)) 0 n)
        (sparseHier.val (fun _ e => decide (e.1.1 = 0) == decide (e.2.1 = 0)) 1 d) =
        pred2 .OR_AND 2 (fun l => sgn (decide (n = 0) == decide (l = 0))) (fun l => sgn (decide (d = 0) == decide (l = 0))) :=
      pred2_rows .OR_AND 2 (fun l hl => hv (fun a b => a == b) 0 (by norm_num) n hn' l hl)
        (fun l hl => hv (fun a b => a == b) 1 (by norm_num) d hd' l hl)
    refine key.trans ?_
    unfold pred2 pm
    simp only [lom, Lom8.outer, Lom8.inner, LOp.Holds, Fin.forall_fin_two, Fin.exists_fin_two]
    have h1 : n = 0 ∨ n = 1 := by omega
    have h2 : d = 0 ∨ d = 1 := by omega
    rcases h1 with rfl | rfl <;> rcases h2 with rfl | rfl <;> simp [sparseHier, sgn]
  · intro hc
    have h1 := hc 0 (by simp [sparseHier]) 1 (by simp [sparseHier]) (by simp [sparseHier])
    have key : pred2 .OR_AND 2 (sparseHier.val (fun _ _ => true) 0 0) (sparseHier.val (fun _ _ => true) 1 1) =
        pred2 .OR_AND 2 (fun _ => sgn true) (fun _ => sgn true) :=
      pred2_rows .OR_AND 2 (fun l hl => hv (fun _ _ => true) 0 (by norm_num) 0 (by norm_num) l hl)
        (fun l hl => hv (fun _ _ => true) 1 (by norm_num) 1 (by norm_num) l hl)
    have h2 := key.symm.trans h1
    unfold pred2 pm at h2
    simp [lom, Lom8.outer, Lom8.inner, LOp.Holds, sparseHier, sgn] at h2

end LFM
