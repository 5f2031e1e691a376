import Verif.Props.Output

/-!
# C49, C51, C75: outputs of MAX-AND layers
-/

namespace LFM

open Spec

/-- the lambdas of a MAX-AND layer with `L` latent dimensions (the last entry belongs to no dimension): positive, at
most 1; and `argsort` sorts them -/
def Spec.LegalMaxLbda (argsort : Arr ℝ → List Nat) (L : Nat) (lb : Arr ℝ) : Prop :=
  (∀ l < L, 0 < lb [l] ∧ lb [l] ≤ 1) ∧ IsArgsort (fun l => lb [l]) L (argsort lb)

theorem max_shape (Z U : Arr Int) (lb : Arr ℝ) (order : List Nat) :
    (MAX_AND_product_2d Z U lb order).shape = [Z.dim 0, U.dim 0] := by
  have e : MAX_AND_product_2d Z U lb order = order.foldl (fun (x : Arr ℝ) l => ⟨x.shape, fun i =>
      if x i = 0 then ((OR_AND_product_expand (Z.col l) (U.col l)).map
        fun (b : Int) => lb [l] * (b : ℝ)) i else x i⟩) (Arr.full [Z.dim 0, U.dim 0] 0) := by
    unfold MAX_AND_product_2d
    simp only [Id.run_bind, Id.run_pure]
    rw [run_forIn_yield _ _ _ _ (by intros; rfl)]
  rw [e]
  have key : ∀ (order : List Nat) (x : Arr ℝ), (order.foldl (fun (x : Arr ℝ) l => ⟨x.shape, fun i =>
      if x i = 0 then ((OR_AND_product_expand (Z.col l) (U.col l)).map
        fun (b : Int) => lb [l] * (b : ℝ)) i else x i⟩) x : Arr ℝ).shape = x.shape := by
    intro order
    induction order with
    | nil => exact fun x => rfl
    | cons a t ih => exact fun x => ih _
  rw [key]
  rfl

theorem minActive_mem {L : Nat} {lb : Nat → ℝ} {z u : Nat → Int} {v : ℝ} (h : IsMinActive L lb z u v)
    (hb : ∀ l < L, 0 < lb l ∧ lb l ≤ 1) : 0 ≤ v ∧ v ≤ 1 := by
  rcases h with ⟨l, hl, -, rfl, -⟩ | ⟨-, rfl⟩
  · exact ⟨(hb l hl).1.le, (hb l hl).2⟩
  · exact ⟨le_rfl, zero_le_one⟩

/-- one evaluation of the MAX-AND product of two legal factors -/
theorem max_ok (argsort : Arr ℝ → List Nat) {Z U : Arr Int} {N D L : Nat} (hZ : Z.shape = [N, L]) (hU : U.shape = [D, L])
    {lb : Arr ℝ} (hl : LegalMaxLbda argsort L lb) :
    ∃ X, maxAndProduct argsort [Z, U] lb = .ok X ∧ X.shape = [N, D] ∧ ∀ n d, n < N → d < D →
      IsMinActive L (fun l => lb [l]) (fun l => Z [n, l]) (fun l => U [d, l]) (X [n, d]) := by
  refine ⟨_, rfl, ?_, fun n d hn hd => ?_⟩
  · rw [max_shape]
    simp [Arr.dim, hZ, hU]
  · exact C07_actual_minimum N D L Z U lb _ hZ hU (fun l h => (hl.1 l h).1) hl.2 n d hn hd

theorem output_max (argsort : Arr ℝ → List Nat) (technique : String) (noisy mp : Bool) (s : OLayer)
    (hm : s.model = "MAX-AND") (out : Arr NpF) (h : outputMax argsort technique s = .ok out) :
    output argsort technique noisy false mp s =
      (.ok (if mp then out else out.map NpF.twiceMinusOne), { s with prediction := some out }) := by
  have hs : ({ s with model := if s.model = "OR-AND-IBP" then "OR-AND" else s.model } : OLayer) = s := by
    rw [hm, if_neg (by decide), ← hm]
  have hc : computeOutput argsort technique noisy s = .ok out := by
    unfold computeOutput
    rw [if_pos hm]
    exact h
  rw [output_eq, hs, hc]

/-- average of the numbers `v 0, ..., v (S-1)` -/
noncomputable def Spec.averageOf (S : Nat) (v : Nat → ℝ) : ℝ := (∑ t ∈ Finset.range S, v t) / S

theorem averageOf_mem {S : Nat} {v : Nat → ℝ} (hS : 0 < S) (h : ∀ t < S, 0 ≤ v t ∧ v t ≤ 1) :
    0 ≤ averageOf S v ∧ averageOf S v ≤ 1 := by
  have hpos : (0 : ℝ) < S := by exact_mod_cast hS
  unfold averageOf
  constructor
  · exact div_nonneg (Finset.sum_nonneg fun t ht => (h t (Finset.mem_range.1 ht)).1) hpos.le
  · rw [div_le_one hpos]
    calc ∑ t ∈ Finset.range S, v t ≤ ∑ t ∈ Finset.range S, (1 : ℝ) :=
          Finset.sum_le_sum fun t ht => (h t (Finset.mem_range.1 ht)).2
      _ = S := by simp

/-- **C51**, MAX-AND: with `technique='mc'` every cell is the average over the samples of what the factors and lambdas
of the sample give (the smallest lambda of an active dimension, see C07). -/
theorem C51_max_and (argsort : Arr ℝ → List Nat) (s : OLayer) (z u : OFac) (lval : Arr ℝ) (lt : List (Arr ℝ))
    (L Lt S : Nat) (hm : s.model = "MAX-AND") (hf : s.factors = [z, u]) (hz : LegalFac L Lt z) (hu : LegalFac L Lt u)
    (hl : s.lbda = .vector lval (some lt)) (hS : lt.length = S) (hpos : 0 < S) (hsz : HasSamples S z)
    (hsu : HasSamples S u) (hlt : ∀ lb ∈ lt, LegalMaxLbda argsort Lt lb) :
    ∃ X, output argsort "mc" false false true s = (.ok X, { s with prediction := some X }) ∧ X.shape = rows s ∧
      ∀ n d, n < (rows s).getD 0 0 → d < (rows s).getD 1 0 → ∃ v : Nat → ℝ,
        (∀ t < S, IsMinActive Lt (fun l => lt.getD t (Arr.full [] 0) [l]) (fun l => sample z t [n, l])
          (fun l => sample u t [d, l]) (v t)) ∧ X [n, d] = .fin (averageOf S v) := by
  have hleg : ∀ f ∈ s.factors, LegalFac L Lt f := by
    rw [hf]; intro f h; simp only [List.mem_cons, List.not_mem_nil, or_false] at h; rcases h with rfl | rfl <;> assumption
  have hsam : ∀ f ∈ s.factors, HasSamples S f := by
    rw [hf]; intro f h; simp only [List.mem_cons, List.not_mem_nil, or_false] at h; rcases h with rfl | rfl <;> assumption
  obtain ⟨N, hN, hNs⟩ := hz.shape
  obtain ⟨D, hD, hDs⟩ := hu.shape
  have hrows : rows s = [N, D] := by simp [rows, hf, hN, hD]
  have hstep : ∀ t < S, ∃ m, (do
      let fs ← traceAt s.factors t
      maxAndProduct argsort fs (lt.getD t (Arr.full [] 0)) : Except Err (Arr ℝ)) = .ok m ∧ m.shape = rows s ∧
      ∀ n d, n < N → d < D → IsMinActive Lt (fun l => lt.getD t (Arr.full [] 0) [l]) (fun l => sample z t [n, l])
          (fun l => sample u t [d, l]) (m [n, d]) := by
    intro t ht
    obtain ⟨trz, z1, z2⟩ := sample_mem hsz ht
    obtain ⟨tru, u1, u2⟩ := sample_mem hsu ht
    have hlb : LegalMaxLbda argsort Lt (lt.getD t (Arr.full [] 0)) := by
      have h3 : lt[t]? = some lt[t] := List.getElem?_eq_getElem (by omega)
      rw [List.getD_eq_getElem?_getD, h3]
      exact hlt _ (List.getElem_mem _)
    obtain ⟨X, h1, h2, h3⟩ := max_ok argsort (hNs trz z1 _ z2) (hDs tru u1 _ u2) hlb
    refine ⟨X, ?_, h2.trans hrows.symm, h3⟩
    rw [traceAt_ok hsam ht, hf]
    exact h1
  choose! m hm1 hm2 hm3 using hstep
  obtain ⟨A, h1, h2, h3⟩ := foldlM_addTo (fun t => do
      let fs ← traceAt s.factors t
      maxAndProduct argsort fs (lt.getD t (Arr.full [] 0))) (rows s) (fun t idx => m t idx) S
    fun t ht => ⟨m t, hm1 t ht, hm2 t ht, fun idx _ => rfl⟩
  have hz' : zerosLike s.factors = Arr.full (rows s) 0 := by rw [zerosLike, rows_eq hleg]
  have hne : (S : ℝ) ≠ 0 := by positivity
  have hout : outputMax argsort "mc" s = .ok (A.map fun x => npDiv x S) := by
    unfold outputMax
    rw [hl]
    simp only [hS]
    rw [if_neg (by decide), if_neg (by decide), if_pos trivial, hz']
    have hb : (fun (out : Arr ℝ) t => do
        let fs ← traceAt s.factors t
        let m ← maxAndProduct argsort fs (lt.getD t (Arr.full [] 0))
        addTo out m : Arr ℝ → Nat → Except Err (Arr ℝ)) = (fun (out : Arr ℝ) t => do
        let m ← (do
          let fs ← traceAt s.factors t
          maxAndProduct argsort fs (lt.getD t (Arr.full [] 0)) : Except Err (Arr ℝ))
        addTo out m) := by
      funext out t
      simp
    rw [hb, h1]
    rfl
  refine ⟨A.map fun x => npDiv x S, output_max argsort "mc" false true s hm _ hout, h2, fun n d hn hd => ?_⟩
  rw [hrows] at hn hd
  refine ⟨fun t => m t [n, d], fun t ht => hm3 t ht n d hn hd, ?_⟩
  show npDiv (A [n, d]) S = _
  rw [npDiv, if_neg hne, h3 [n, d] (by rw [hrows]; exact ⟨hn, hd, trivial⟩)]
  rfl

/-- **C49**, MAX-AND (`_partial`: for `factor_mean` it fails, `C49_max_wrong`): probabilities for `point_estimate`,
`factor_map` and `mc`. -/
theorem C49_max_and_partial (argsort : Arr ℝ → List Nat) (technique : String) (noisy mp : Bool) (s : OLayer)
    (z u : OFac) (lval : Arr ℝ) (ltrace : Option (List (Arr ℝ))) (L Lt : Nat) (hm : s.model = "MAX-AND")
    (hf : s.factors = [z, u]) (hz : LegalFac L Lt z) (hu : LegalFac L Lt u) (hl : s.lbda = .vector lval ltrace)
    (hS : z.trace ≠ some [] ∧ u.trace ≠ some []) (hw : L = Lt)
    (hlv : LegalMaxLbda argsort L lval)
    (ht : technique = "point_estimate" ∨ technique = "factor_map" ∨ technique = "mc" ∧
      ∃ lt S, ltrace = some lt ∧ lt.length = S ∧ 0 < S ∧ HasSamples S z ∧ HasSamples S u ∧
        ∀ lb ∈ lt, LegalMaxLbda argsort Lt lb) :
    ∃ X, (output argsort technique noisy false mp s).1 = .ok X ∧ X.shape = rows s ∧
      ∀ n d, n < (rows s).getD 0 0 → d < (rows s).getD 1 0 →
        if mp then IsProb (X [n, d]) else IsSigned (X [n, d]) := by
  subst hw
  obtain ⟨N, hN, hNs⟩ := hz.shape
  obtain ⟨D, hD, hDs⟩ := hu.shape
  have hrows : rows s = [N, D] := by simp [rows, hf, hN, hD]
  suffices h : ∃ Y, outputMax argsort technique s = .ok Y ∧ Y.shape = rows s ∧
      ∀ n d, n < N → d < D → IsProb (Y [n, d]) by
    obtain ⟨Y, g1, g2, g3⟩ := h
    rw [output_max argsort technique noisy mp s hm Y g1]
    refine ⟨_, rfl, by cases mp <;> exact g2, fun n d hn hd => ?_⟩
    rw [hrows] at hn hd
    cases mp
    · obtain ⟨p, e, p0, p1⟩ := g3 n d hn hd
      show IsSigned (Y [n, d]).twiceMinusOne
      rw [e]
      exact ⟨_, rfl, by linarith, by linarith⟩
    · exact g3 n d hn hd
  rcases ht with rfl | rfl | ⟨rfl, lt, S, rfl, hS', hpos, hsz, hsu, hlt⟩
  · obtain ⟨X, h1, h2, h3⟩ := max_ok argsort hN hD hlv
    refine ⟨finArr X, ?_, h2.trans hrows.symm, fun n d hn hd => ⟨_, rfl, minActive_mem (h3 n d hn hd) hlv.1⟩⟩
    unfold outputMax
    rw [hl]
    simp only [if_true]
    rw [hf]
    show (maxAndProduct argsort [z.val, u.val] lval >>= fun out => pure (finArr out)) = _
    rw [h1]
    rfl
  · have hsh : ∀ f, LegalFac L L f → f.trace ≠ some [] → ∀ N, f.val.shape = [N, L] → f.mean.sign.shape = [N, L] := by
      intro f hfl hft N hN
      obtain ⟨a, N', h1, h2, h3, -⟩ := C48_mean_in_range L L f hfl hft
      have : N' = N := by rw [← h2]; simp [Arr.dim, hN]
      rw [h1]
      show a.shape = _
      rw [h3, this]
      split <;> rfl
    obtain ⟨X, h1, h2, h3⟩ := max_ok argsort (hsh z hz hS.1 N hN) (hsh u hu hS.2 D hD) hlv
    refine ⟨finArr X, ?_, h2.trans hrows.symm, fun n d hn hd => ⟨_, rfl, minActive_mem (h3 n d hn hd) hlv.1⟩⟩
    unfold outputMax
    rw [hl]
    show (if "factor_map" = "point_estimate" then _ else _) = _
    rw [if_neg (by decide), if_pos rfl, hf]
    show (maxAndProduct argsort [z.mean.sign, u.mean.sign] lval >>= fun out => pure (finArr out)) = _
    rw [h1]
    rfl
  · obtain ⟨X, h1, h2, h3⟩ := C51_max_and argsort s z u lval lt L L S hm hf hz hu hl hS' hpos hsz hsu hlt
    cases hc : outputMax argsort "mc" s with
    | error e =>
      have hs : ({ s with model := if s.model = "OR-AND-IBP" then "OR-AND" else s.model } : OLayer) = s := by
        rw [hm, if_neg (by decide), ← hm]
      have hc' : computeOutput argsort "mc" false s = .error e := by
        unfold computeOutput
        rw [if_pos hm]
        exact hc
      rw [output_eq, hs, hc'] at h1
      simp at h1
    | ok Y =>
      rw [output_max argsort "mc" false true s hm Y hc] at h1
      have e : Y = X := by simpa using (Prod.mk.inj h1).1
      subst e
      refine ⟨Y, rfl, h2, fun n d hn hd => ?_⟩
      obtain ⟨v, hv1, hv2⟩ := h3 n d (by rw [hrows]; exact hn) (by rw [hrows]; exact hd)
      refine ⟨_, hv2, averageOf_mem hpos fun t ht => minActive_mem (hv1 t ht) ?_⟩
      have h3 : lt[t]? = some lt[t] := List.getElem?_eq_getElem (by omega)
      have : LegalMaxLbda argsort L (lt.getD t (Arr.full [] 0)) := by
        rw [List.getD_eq_getElem?_getD, h3]
        exact hlt _ (List.getElem_mem _)
      exact this.1

/-- the hypotheses of C51 and C49 are met: two samples of two factors with two latent dimensions -/
theorem C51_max_hypotheses_met : ∃ (argsort : Arr ℝ → List Nat) (s : OLayer) (z u : OFac) (lval : Arr ℝ) (lt : List (Arr ℝ)),
    s.model = "MAX-AND" ∧ s.factors = [z, u] ∧ LegalFac 2 2 z ∧ LegalFac 2 2 u ∧ s.lbda = .vector lval (some lt) ∧
      lt.length = 2 ∧ HasSamples 2 z ∧ HasSamples 2 u ∧ LegalMaxLbda argsort 2 lval ∧
      (∀ lb ∈ lt, LegalMaxLbda argsort 2 lb) ∧ z.trace ≠ some [] ∧ u.trace ≠ some [] := by
  let Z : Arr Int := ⟨[3, 2], fun i => if i = [0, 1] then -1 else 1⟩
  let U : Arr Int := ⟨[4, 2], fun i => if i = [2, 0] then -1 else 1⟩
  let lb : Arr ℝ := ⟨[3], fun i => if i = [0] then 9 / 10 else if i = [1] then 1 / 2 else 1 / 10⟩
  have hZ : PMArr Z := fun i _ => by
    by_cases h : i = [0, 1]
    · exact .inr (by simp [Z, h])
    · exact .inl (by simp [Z, h])
  have hU : PMArr U := fun i _ => by
    by_cases h : i = [2, 0]
    · exact .inr (by simp [U, h])
    · exact .inl (by simp [U, h])
  have hlb : LegalMaxLbda (fun _ => [1, 0]) 2 lb := by
    refine ⟨fun l hl => ?_, by decide, ?_⟩
    · have : l = 0 ∨ l = 1 := by omega
      rcases this with rfl | rfl <;> (simp only [lb]; norm_num)
    · simp only [List.pairwise_cons, List.mem_singleton, forall_eq, lb]
      norm_num
  have hl : ∀ (N : Nat) (A : Arr Int), A.shape = [N, 2] → PMArr A → LegalFac 2 2 ⟨A, some [A, A]⟩ := by
    intro N A h1 h2
    refine ⟨⟨N, h1, fun tr h a ha => ?_⟩, h2, fun tr h a ha => ?_⟩ <;>
    · cases h
      have : a = A := by simpa using ha
      rw [this]
      assumption
  exact ⟨fun _ => [1, 0], ⟨"MAX-AND", [⟨Z, some [Z, Z]⟩, ⟨U, some [U, U]⟩], .vector lb (some [lb, lb]), Arr.full [] 0, [], none⟩,
    ⟨Z, some [Z, Z]⟩, ⟨U, some [U, U]⟩, lb, [lb, lb], rfl, rfl, hl 3 Z rfl hZ, hl 4 U rfl hU, rfl, rfl, ⟨_, rfl, rfl⟩,
    ⟨_, rfl, rfl⟩, hlb, fun x hx => by
      have : x = lb := by simpa using hx
      rw [this]; exact hlb, by simp, by simp⟩

end LFM
