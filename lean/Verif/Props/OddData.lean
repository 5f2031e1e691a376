import Verif.Lemmas.OddData
import Verif.Props.Mixing

/-!
# C79 with the default prior: data with which the samples converge, and data with which they do not
-/

namespace LFM

open Spec MeasureTheory

namespace Spec.Hier

variable {h : Hier}

/-- if no entry matters in a state then the states are not linked -/
theorem not_mixing {s0 s : h.State} (q : h.Site) (hs : ∀ q, ¬ Matters (fun _ => True) s q) : ¬ h.Mixing (fun _ => True) s0 := by
  intro hm
  have hall : ∀ s : h.State, h.Agree (fun _ => True) s s0 := fun s q hq => absurd trivial hq
  have := hm s (flipAt q s) (hall _) (hall _)
  rcases Relation.ReflTransGen.cases_head this with he | ⟨c, ⟨q', hq', -⟩, -⟩
  · have := congrFun (congrFun he q.1) q.2
    rw [flipAt_self] at this
    simp at this
  · exact hs q' hq'

theorem joint_eq_of_score (H : h.Legal) {k : HLayer} {i j : Fin h.M} {X : Nat → Nat → Int} (O : OneLayer h k i j X)
    (hprior : h.prior i = 1 / 2) (x : h.State) (e : Fin (h.rows i) × Fin (h.cols i))
    (h0 : twiceScore2 k.model (h.rows j) (h.cols k.z) (Cfg.fac (x i) e.1) (Cfg.fac (x j)) (X e.1) e.2 = 0) :
    h.joint (Function.update x i (Function.update (x i) e true)) = h.joint (Function.update x i (Function.update (x i) e false)) := by
  have ho := O.odds H hprior x e
  rw [h0] at ho
  simp only [Int.cast_zero, mul_zero, zero_div] at ho
  exact Real.log_injOn_pos (joint_pos H _) (joint_pos H _) (by linarith)

/-- the other factor of a layer -/
theorem exists_other (H : h.Legal) {k : HLayer} (hk : h.layers = [k]) (hv : k.v = none) (i : Fin h.M) :
    ∃ (j : Fin h.M) (X : Nat → Nat → Int), OneLayer h k i j X := by
  have hmem : k ∈ h.layers := by rw [hk]; simp
  obtain ⟨k', hk', hi⟩ := H.owner i i.2
  rw [hk, List.mem_singleton] at hk'
  subst hk'
  rcases mem_factors.1 hi with e | e | e
  · exact ⟨⟨k'.u, H.latent k' hmem _ (mem_u k')⟩, _, hk, hv, .inl ⟨e, rfl, rfl⟩⟩
  · exact ⟨⟨k'.z, H.latent k' hmem _ (mem_z k')⟩, _, hk, hv, .inr ⟨e, rfl, rfl⟩⟩
  · rw [hv] at e
    cases e

/-- while another matrix is updated, a matrix is as before or opposite -/
theorem midway_other (s : h.State) (before : Finset (Fin h.M)) (q : h.Site) (x : h.State)
    (hx : x = midway (fun _ => True) before q s ∨ x = midway (fun _ => True) before q (opposite (fun _ => True) s))
    (j : Fin h.M) (hj : j ≠ q.1) : (∀ e, x j e = s j e) ∨ ∀ e, x j e = !(s j e) := by
  classical
  rcases hx with rfl | rfl <;> by_cases hb : j ∈ before
  · exact .inr fun e => by simp [midway, hb]
  · exact .inl fun e => by simp [midway, hb, hj]
  · exact .inl fun e => by simp [midway, opposite, hb]
  · exact .inr fun e => by simp [midway, opposite, hb, hj]

/-- with balanced data nothing matters if all entries are equal -/
theorem balanced_still (H : h.Legal) {k : HLayer} (hk : h.layers = [k]) (hv : k.v = none) (hprior : ∀ i < h.M, h.prior i = 1 / 2)
    (hrow : ∀ n < h.rows k.child, ∑ d : Fin (h.cols k.child), h.data k.child [n, d] = 0)
    (hcol : ∀ d < h.cols k.child, ∑ n : Fin (h.rows k.child), h.data k.child [n, d] = 0) (q : h.Site) :
    ¬ Matters (fun _ => True) (fun _ _ => true) q := by
  obtain ⟨i, e⟩ := q
  rintro ⟨-, before, hb, x, hx, hne⟩
  obtain ⟨j, X, O⟩ := Spec.Hier.exists_other H hk hv i
  apply hne
  refine Spec.Hier.joint_eq_of_score H O (hprior i i.2) x e ?_
  -- all rows of the other factor are equal
  obtain ⟨b, hxb⟩ : ∃ b : Bool, ∀ e, x j e = b := by
    rcases Spec.Hier.midway_other _ before ⟨i, e⟩ x hx j (O.ne H) with h1 | h1
    · exact ⟨true, h1⟩
    · exact ⟨!true, h1⟩
  have hsum : ∑ d : Fin (h.rows j), X e.1 d = 0 := by
    obtain ⟨e1, e2, -⟩ := H.sizes2 k O.mem hv
    rcases O.sides with ⟨a, c, rfl⟩ | ⟨a, c, rfl⟩
    · have : h.rows j = h.cols k.child := by rw [c, e2]
      simp only
      rw [this]
      exact hrow e.1 (by rw [← e1, ← a]; exact e.1.2)
    · have : h.rows j = h.rows k.child := by rw [c, e1]
      simp only
      rw [this]
      exact hcol e.1 (by rw [← e2, ← a]; exact e.1.2)
  rw [Spec.Hier.twiceScore2_congr k.model _ _ (u := fun _ _ => sgn b) _ _ (fun _ _ => rfl)]
  · unfold twiceScore2
    rw [← Finset.sum_mul, hsum, zero_mul]
  · intro d hd l hl
    unfold Cfg.fac
    rw [dif_pos ⟨hd, by rw [(O.cols_eq H).2]; exact hl⟩, hxb]

/-- with OR-NAND nothing matters if every row has entries of either sign -/
theorem or_nand_still (H : h.Legal) {k : HLayer} (hk : h.layers = [k]) (hv : k.v = none) (hprior : ∀ i < h.M, h.prior i = 1 / 2)
    (hmod : k.model = .OR_NAND) (hL : 2 ≤ h.cols k.z) (q : h.Site) :
    ¬ Matters (fun _ => True) (fun _ e => decide ((e.2 : Nat) = 0)) q := by
  obtain ⟨i, e⟩ := q
  rintro ⟨-, before, hb, x, hx, hne⟩
  obtain ⟨j, X, O⟩ := Spec.Hier.exists_other H hk hv i
  apply hne
  refine Spec.Hier.joint_eq_of_score H O (hprior i i.2) x e ?_
  have hc := (O.cols_eq H).2
  -- every row of the other factor has an entry -1
  have hneg : ∀ d < h.rows j, ∃ l < h.cols k.z, Cfg.fac (x j) d l = -1 := by
    intro d hd
    rcases Spec.Hier.midway_other _ before ⟨i, e⟩ x hx j (O.ne H) with h1 | h1
    · refine ⟨1, by omega, ?_⟩
      unfold Cfg.fac
      rw [dif_pos ⟨hd, by omega⟩, h1]
      rfl
    · refine ⟨0, by omega, ?_⟩
      unfold Cfg.fac
      rw [dif_pos ⟨hd, by omega⟩, h1]
      rfl
  unfold twiceScore2
  refine Finset.sum_eq_zero fun d _ => ?_
  obtain ⟨l, hl, hd⟩ := hneg d d.2
  have hp : ∀ z, pred2 k.model (h.cols k.z) z (Cfg.fac (x j) d) = 1 := by
    intro z
    rw [hmod]
    unfold pred2 pm
    rw [if_pos]
    refine ⟨⟨l, hl⟩, fun hall => ?_⟩
    have := hall 1
    simp [hd] at this
  rw [hp, hp, sub_self, mul_zero]

end Spec.Hier

/-- **C79** (partial), with the default prior: for a single layer of two factors with one or two latent dimensions, any model
(OR-NAND: with one latent dimension), and any strength other than 0, the samples converge to the posterior from every
initial state if every row and every column of the data has an odd number of observed cells. -/
theorem C79_odd_partial {h : Hier} (H : h.Legal) {k : HLayer} (hk : h.layers = [k]) (hv : k.v = none)
    (hprior : ∀ i < h.M, h.prior i = 1 / 2) (hl : k.lbda ≠ 0) (hL : h.cols k.z ≤ 2)
    (hmod : ¬ (k.model = .OR_NAND ∧ h.cols k.z = 2))
    (hrow : ∀ n < h.rows k.child, Odd (Finset.univ.filter fun d : Fin (h.cols k.child) => h.data k.child [n, d] ≠ 0).card)
    (hcol : ∀ d < h.cols k.child, Odd (Finset.univ.filter fun n : Fin (h.rows k.child) => h.data k.child [n, d] ≠ 0).card)
    {wr : Wiring} (hw : h.Wired wr) {m : Mach Sampler LbdaUpdate} (hm : h.FixedLbdas wr m) (fe : Nat → Arr Int)
    (hfe : ∀ q, h.Sampled m fe q) (s0 : h.State) : h.SamplesConverge (fun _ => True) s0 wr m fe := by
  refine (C79_mixing_iff H _ s0 hw hm fe fun q => iff_of_true trivial (hfe q)).1 (Spec.Hier.mixing_of_matters ?_)
  rintro s ⟨i, e⟩ -
  have hmem : k ∈ h.layers := by rw [hk]; simp
  obtain ⟨e1, e2, -⟩ := H.sizes2 k hmem hv
  obtain ⟨k', hk', hi⟩ := H.owner i i.2
  rw [hk, List.mem_singleton] at hk'
  subst hk'
  rcases Spec.Hier.mem_factors.1 hi with a | a | a
  · refine Spec.Hier.matters_odd H (j := ⟨k'.u, H.latent k' hmem _ (Spec.Hier.mem_u k')⟩) ⟨hk, hv, .inl ⟨a, rfl, rfl⟩⟩
      (hprior i i.2) hl hL hmod ?_ s e
    intro n hn
    simp only
    rw [e2]
    exact hrow n (by rw [← e1, ← a]; exact hn)
  · refine Spec.Hier.matters_odd H (j := ⟨k'.z, H.latent k' hmem _ (Spec.Hier.mem_z k')⟩) ⟨hk, hv, .inr ⟨a, rfl, rfl⟩⟩
      (hprior i i.2) hl hL hmod ?_ s e
    intro n hn
    simp only
    rw [e1]
    exact hcol n (by rw [← e2, ← a]; exact hn)
  · rw [hv] at a
    cases a

/-- **C79** fails with the default prior if the data are balanced: if all row sums and all column sums of the data are 0,
then the samples of a single layer of two factors do not converge to the posterior, whatever the model, the number of latent
dimensions and the strength -/
theorem C79_balanced {h : Hier} (H : h.Legal) {k : HLayer} (hk : h.layers = [k]) (hv : k.v = none)
    (hprior : ∀ i < h.M, h.prior i = 1 / 2)
    (hrow : ∀ n < h.rows k.child, ∑ d : Fin (h.cols k.child), h.data k.child [n, d] = 0)
    (hcol : ∀ d < h.cols k.child, ∑ n : Fin (h.rows k.child), h.data k.child [n, d] = 0)
    {wr : Wiring} (hw : h.Wired wr) {m : Mach Sampler LbdaUpdate} (hm : h.FixedLbdas wr m) (fe : Nat → Arr Int)
    (hfe : ∀ q, h.Sampled m fe q) (q0 : h.Site) (s0 : h.State) : ¬ h.SamplesConverge (fun _ => True) s0 wr m fe := by
  rw [← C79_mixing_iff H _ s0 hw hm fe fun q => iff_of_true trivial (hfe q)]
  refine Spec.Hier.not_mixing (s := fun _ _ => true) q0
    (Spec.Hier.balanced_still H hk hv hprior hrow hcol)

/-- **C79** fails for OR-NAND with the default prior: with two or more latent dimensions, the samples of a single layer of two
factors do not converge to the posterior, whatever the data and the strength -/
theorem C79_or_nand {h : Hier} (H : h.Legal) {k : HLayer} (hk : h.layers = [k]) (hv : k.v = none)
    (hprior : ∀ i < h.M, h.prior i = 1 / 2) (hmod : k.model = .OR_NAND) (hL : 2 ≤ h.cols k.z)
    {wr : Wiring} (hw : h.Wired wr) {m : Mach Sampler LbdaUpdate} (hm : h.FixedLbdas wr m) (fe : Nat → Arr Int)
    (hfe : ∀ q, h.Sampled m fe q) (q0 : h.Site) (s0 : h.State) : ¬ h.SamplesConverge (fun _ => True) s0 wr m fe := by
  rw [← C79_mixing_iff H _ s0 hw hm fe fun q => iff_of_true trivial (hfe q)]
  refine Spec.Hier.not_mixing (s := fun _ e => decide ((e.2 : Nat) = 0)) q0
    (Spec.Hier.or_nand_still H hk hv hprior hmod hL)

/-- one layer of two factors over an `N × D` data matrix, with the default prior -/
noncomputable def plainHier (model : Lom8) (N D L : Nat) (X : Arr Int) (lbda : ℝ) : Hier where
  M := 2
  rows i := if i = 0 then N else if i = 1 then D else N
  cols i := if i = 2 then D else L
  layers := [⟨model, 0, 1, 2, lbda, none⟩]
  data _ := X
  prior _ := 1 / 2

theorem plainHier_legal (model : Lom8) {N D : Nat} (L : Nat) {X : Arr Int} (lbda : ℝ) (hN : N ≤ 32767) (hD : D ≤ 32767)
    (hX : X.shape = [N, D]) (hd : DataArr X) : (plainHier model N D L X lbda).Legal := by
  have hl : ∀ k ∈ (plainHier model N D L X lbda).layers, k = ⟨model, 0, 1, 2, lbda, none⟩ := by
    intro k hk
    simpa [plainHier] using hk
  refine ⟨?_, ?_, ?_, ?_, ?_, ?_, ?_, ?_, ?_, ?_, ?_, ?_, ?_⟩
  · intro i _; simp only [plainHier]; norm_num
  · intro k hk; rw [hl k hk]; simp [plainHier, HLayer.factors]
  · intro k hk; rw [hl k hk]; simp [HLayer.factors]
  · simp [plainHier, HLayer.factors]
  · intro i hi
    simp only [plainHier] at hi
    have : i = 0 ∨ i = 1 := by omega
    rcases this with rfl | rfl <;> simp [plainHier, HLayer.factors]
  · intro i hi
    simp only [plainHier] at hi
    have : i = 0 ∨ i = 1 := by omega
    rcases this with rfl | rfl <;> simp [plainHier, Spec.Hier.parentsOf]
  · intro k hk _; rw [hl k hk]; simp [plainHier, hN, hD]
  · intro k hk _; rw [hl k hk]; simp [plainHier]
  · intro k hk _ _
    rw [hl k hk]
    exact ⟨by simp [plainHier, hX], hd⟩
  · intro k hk v hv; rw [hl k hk] at hv; cases hv
  · intro k hk v hv; rw [hl k hk] at hv; cases hv
  · intro k hk v hv; rw [hl k hk] at hv; cases hv
  · intro k hk hv; rw [hl k hk] at hv; exact absurd rfl hv

/-- 1 on the diagonal, -1 elsewhere -/
def crossData : Arr Int := ⟨[2, 2], fun idx => if idx = [0, 0] ∨ idx = [1, 1] then 1 else -1⟩

/-- a fully observed 3 × 3 data matrix has odd rows and columns; a 2 × 2 matrix with a 1 and a -1 in every row and column is
balanced; and there are machines that sample every entry -/
theorem C79_odd_hypotheses_met :
    (plainHier .OR_AND 3 3 2 (Arr.full [3, 3] 1) 1).Legal ∧
    (∀ n < 3, Odd (Finset.univ.filter fun d : Fin 3 => (Arr.full [3, 3] (1 : Int)) [n, d] ≠ 0).card) ∧
    (plainHier .OR_AND 2 2 2 crossData 1).Legal ∧
    (∀ n < 2, ∑ d : Fin 2, crossData [n, d] = 0) ∧
    (∀ d < 2, ∑ n : Fin 2, crossData [n, d] = 0) ∧
    (plainHier .OR_NAND 3 3 2 (Arr.full [3, 3] 1) 1).Legal ∧
    ∀ (h : Hier), h.Legal → ∀ (perm : Nat → List Nat → List Nat) (s : h.State),
      h.Wired (h.wiringOf perm) ∧ h.FixedLbdas (h.wiringOf perm) (h.machOf (fun _ => Arr.full [] 0) s) ∧
      ∀ q, h.Sampled (h.machOf (fun _ => Arr.full [] 0) s) (fun _ => Arr.full [] 0) q := by
  have h3 : DataArr (Arr.full [3, 3] (1 : Int)) := fun idx _ => .inl rfl
  refine ⟨plainHier_legal _ _ _ (by norm_num) (by norm_num) rfl h3, ?_,
    plainHier_legal _ _ _ (by norm_num) (by norm_num) rfl ?_, ?_, ?_,
    plainHier_legal _ _ _ (by norm_num) (by norm_num) rfl h3, ?_⟩
  · intro n hn
    simp [Arr.full]
    decide
  · intro idx _
    unfold crossData IsData
    dsimp only
    split <;> simp
  · intro n hn
    have : n = 0 ∨ n = 1 := by omega
    rcases this with rfl | rfl <;> simp [Fin.sum_univ_two, crossData]
  · intro n hn
    have : n = 0 ∨ n = 1 := by omega
    rcases this with rfl | rfl <;> simp [Fin.sum_univ_two, crossData]
  · intro h H perm s
    refine ⟨Spec.Hier.wiringOf_wired H perm, Spec.Hier.machOf_fixed H perm _ s, fun q => ⟨?_, by simp [Arr.full]⟩⟩
    rw [Spec.Hier.mem_freeMats_machOf H]
    exact q.1.2

end LFM
