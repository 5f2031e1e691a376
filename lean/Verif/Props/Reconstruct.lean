import Verif.Props.Predictive
import Verif.Props.PointOutput

/-!
# C93: `tensorm_reconstruct`
-/

namespace LFM

open Spec

theorem tensormData_shape (X : Arr Int) (int8 : Bool) : (tensormData X int8).shape = X.shape := by
  unfold tensormData
  cases int8 <;> simp only <;> split_ifs <;> rfl

/-- one run of `tensorm_reconstruct` up to the predictions -/
theorem reconstruct_run (argsort : Arr ℝ → List Nat) (X : Arr Int) (int8 : Bool) (L : Nat) (dr : Draws)
    (hK : X.shape.length = 2 ∨ X.shape.length = 3) (hinit : ∀ k idx, IsPM (dr.init k idx))
    (hperm : ∀ t l, ∀ i ∈ dr.perm t l, i ∈ l) :
    ∃ s : OLayer, s.model = "OR-AND" ∧ rows s = X.shape ∧ s.factors.length = X.shape.length ∧
      (∀ f ∈ s.factors, LegalFac L L f) ∧ (∀ f ∈ s.factors, ∃ tr, f.trace = some tr ∧ tr.length = 50) ∧
      ∀ P Q, output argsort "factor_mean" false false true s = (.ok P, { s with prediction := some P }) →
        output argsort "factor_map" false false true { s with prediction := some P } =
          (.ok Q, { s with prediction := some Q }) →
        tensorm_reconstruct argsort X int8 L dr = match s.factors with
          | z :: u :: v :: _ => .ok (P, [z.mean, u.mean, v.mean], Q)
          | _ => .error .indexError := by
  obtain ⟨data, hdata⟩ : ∃ data, data = tensormData X int8 := ⟨_, rfl⟩
  have hd2 : data.shape = X.shape := by rw [hdata, tensormData_shape]
  have hK' : data.shape.length = 2 ∨ data.shape.length = 3 := by rw [hd2]; exact hK
  obtain ⟨H, hw⟩ := newMach_single data .OR_AND L (5 / 100) false dr hK' hinit hperm
  have hfr : ∀ i ∈ (newLayer data.shape.length Lom8.OR_AND.name).factors,
      (newMach data Lom8.OR_AND.name L (5 / 100) false dr).fixed i = false := by
    intro i hi
    simp only [newLayer, List.mem_range] at hi
    simp only [newMach, decide_eq_false_iff_not]
    omega
  obtain ⟨m', s, L', h1, h2, h3, h4, -, h6, h7, h8, h9, h10, -, h12, h13⟩ :=
    H.after_infer rfl hw 50 15 100 (5 / 1000) 2000 10 0 (.inl rfl) (by omega) (by omega) (by omega)
      (fun i hi hf => by rw [hfr i hi] at hf; cases hf) (fun hf => by cases hf) none
  have hlen : s.factors.length = data.shape.length := by rw [h3]; simp [newLayer]
  have hL : L = L' := by
    have := h13 rfl rfl 0 (by simp only [newLayer, List.mem_range]; omega)
    have h0 : 0 < data.shape.length := by omega
    simpa [newMach, h0, Arr.dim] using this
  subst hL
  refine ⟨s, h4, by rw [h6, hd2], by rw [hlen, hd2], h7, ?_, ?_⟩
  · intro f hf
    rw [h3, List.mem_map] at hf
    obtain ⟨i, hi, rfl⟩ := hf
    exact h10 i hi (hfr i hi)
  · intro P Q hP hQ
    unfold tensorm_reconstruct
    simp only
    rw [← hdata]
    have h1' : infer (genericEnv (newWiring data.shape.length "OR-AND" dr)) 50 15 (5 / 1000) 100 2000 10 0
      (newMach data "OR-AND" L (5 / 100) false dr) = .ok m' := h1
    rw [h1']
    show (match m'.olayer 0 none with | none => _ | some s => _) = _
    rw [h2]
    simp only
    rw [hP]
    show (_ >>= _) = _
    simp only [hQ]
    cases hfs : s.factors with
    | nil => rfl
    | cons a l =>
      cases l with
      | nil => rfl
      | cons b l =>
        cases l with
        | nil => rfl
        | cons c l => rfl

/-- the mean of the samples of an entry: the number of ones decides -/
theorem mean_of_samples {f : OFac} {L S : Nat} (hf : LegalFac L L f) (hS : HasSamples S f) (hpos : 0 < S) {a : Arr ℝ}
    (ha : f.mean = .nums a) {n l : Nat} (hn : n < f.val.shape.headD 0) (hl : l < L) :
    (1 + a [n, l]) / 2 = onesShare f [n, l] ∧ (∃ k ≤ S, a [n, l] = (2 * k - S) / S) ∧ (Majority f [n, l] ↔ 0 < a [n, l]) := by
  obtain ⟨tr, ht, hlen⟩ := hS
  have h := mean_share hf (by rw [ht]; rintro ⟨⟩; simp at hlen; omega) (.inl rfl) ha hn hl
  have hS' : (0 : ℝ) < S := by exact_mod_cast hpos
  have hs : onesShare f [n, l] = (tr.countP fun b => b [n, l] = 1 : Nat) / S := by
    rw [onesShare, ht]; simp only [hlen]
  have hcnt : (tr.map fun s => s [n, l]).count 1 = tr.countP fun b => b [n, l] = 1 := by
    rw [List.count, List.countP_map]
    refine List.countP_congr fun x _ => ?_
    simp
  have hle : (tr.countP fun b => b [n, l] = 1) ≤ S := hlen ▸ List.countP_le_length
  have hm : Majority f [n, l] ↔ S < 2 * tr.countP fun b => b [n, l] = 1 := by
    rw [Majority, ht]; simp only [hcnt, hlen]
  rw [hs] at h
  obtain ⟨c, hc⟩ : ∃ c, c = tr.countP fun b => b [n, l] = 1 := ⟨_, rfl⟩
  rw [← hc] at h hs hm hle
  have e : a [n, l] = (2 * c - S) / S := by
    field_simp at h ⊢
    linarith
  refine ⟨by rw [hs, ← h]; ring, ⟨c, hle, e⟩, ?_⟩
  rw [hm, e, div_pos_iff_of_pos_right hS', sub_pos]
  exact_mod_cast Iff.rfl

/-- **C93**: for tensors with three axes, `tensorm_reconstruct` returns the probability of every cell to be one if the entries
of the three factors are independent ones with the frequencies of their samples; the means of the samples of the factors; and
the Boolean product of the factors whose entries are ones if most of their samples are. Whatever is drawn. -/
theorem C93_reconstruction (argsort : Arr ℝ → List Nat) (X : Arr Int) (int8 : Bool) (L : Nat) (dr : Draws) (N D M : Nat)
    (hX : X.shape = [N, D, M]) (hinit : ∀ k idx, IsPM (dr.init k idx)) (hperm : ∀ t l, ∀ i ∈ dr.perm t l, i ∈ l) :
    ∃ (P Q : Arr NpF) (z u v : Arr ℝ),
      tensorm_reconstruct argsort X int8 L dr = .ok (P, [.nums z, .nums u, .nums v], Q) ∧
      P.shape = [N, D, M] ∧ Q.shape = [N, D, M] ∧ z.shape = [N, L] ∧ u.shape = [D, L] ∧ v.shape = [M, L] ∧
      (∀ f ∈ [z, u, v], ∀ n l, InB f.shape [n, l] → ∃ k : Nat, k ≤ 50 ∧ f [n, l] = (2 * k - 50) / 50) ∧
      ∀ n d m, n < N → d < D → m < M →
        P [n, d, m] = .fin (1 - ∏ l : Fin L, (1 - (1 + z [n, l]) / 2 * ((1 + u [d, l]) / 2) * ((1 + v [m, l]) / 2))) ∧
        Q [n, d, m] = asProb (∃ l < L, 0 < z [n, l] ∧ 0 < u [d, l] ∧ 0 < v [m, l]) := by
  obtain ⟨s, hm, hrow, hlen, hf, hS, hrun⟩ := reconstruct_run argsort X int8 L dr (.inr (by rw [hX]; rfl)) hinit hperm
  have hS' : ∀ f ∈ s.factors, f.trace ≠ some [] := by
    intro f hfm
    obtain ⟨tr, h1, h2⟩ := hS f hfm
    rw [h1]
    rintro ⟨⟩
    simp at h2
  obtain ⟨P, hP, hPs, hPv⟩ := factor_mean_exact argsort s .OR_AND L L (.inr ⟨by rw [hlen, hX]; rfl, rfl⟩) hf hS' (.inl rfl) hm
  have hne : s.factors ≠ [] := by
    intro h
    rw [h, hX] at hlen
    simp at hlen
  obtain ⟨Q, hQ, hQs, hQv⟩ := C84_factor_map argsort { s with prediction := some P } .OR .AND L L hne hf hS' (.inl rfl)
    (.inl hm)
  have hr := hrun P Q hP hQ
  clear hrun hQ hP
  obtain ⟨g, hg⟩ := means_ok hf hS' (.inl rfl)
  rw [hX] at hlen hrow
  obtain ⟨model, factors, lb, csh, th, pr⟩ := s
  simp only at hlen hf hS hS' hg hr
  obtain ⟨a, b, c, rfl⟩ := List.length_eq_three.1 hlen
  simp only [rows, List.map_cons, List.map_nil, List.cons.injEq, and_true] at hrow
  obtain ⟨ra, rb, rc⟩ := hrow
  have ha := hg a (by simp)
  have hb := hg b (by simp)
  have hc := hg c (by simp)
  have ma := fun n l (hn : n < N) (hl : l < L) => mean_of_samples (hf a (by simp)) (hS a (by simp)) (by omega) ha.1
    (n := n) (l := l) (by rw [ra]; exact hn) hl
  have mb := fun n l (hn : n < D) (hl : l < L) => mean_of_samples (hf b (by simp)) (hS b (by simp)) (by omega) hb.1
    (n := n) (l := l) (by rw [rb]; exact hn) hl
  have mc := fun n l (hn : n < M) (hl : l < L) => mean_of_samples (hf c (by simp)) (hS c (by simp)) (by omega) hc.1
    (n := n) (l := l) (by rw [rc]; exact hn) hl
  have hr3 : ∀ (p : Option (Arr NpF)), rows ⟨model, [a, b, c], lb, csh, th, p⟩ = [N, D, M] := by
    intro p
    simp only [rows, List.map_cons, List.map_nil]
    rw [ra, rb, rc]
  refine ⟨P, Q, g a, g b, g c, by rw [hr]; simp only [ha.1, hb.1, hc.1], by rw [hPs, hr3], by rw [hQs, hr3], by rw [ha.2.1, ra],
    by rw [hb.2.1, rb], by rw [hc.2.1, rc], ?_, ?_⟩
  · intro f hfm n l hnl
    simp only [List.mem_cons, List.not_mem_nil, or_false] at hfm
    rcases hfm with rfl | rfl | rfl
    · rw [ha.2.1, ra] at hnl; exact_mod_cast (ma n l hnl.1 hnl.2.1).2.1
    · rw [hb.2.1, rb] at hnl; exact_mod_cast (mb n l hnl.1 hnl.2.1).2.1
    · rw [hc.2.1, rc] at hnl; exact_mod_cast (mc n l hnl.1 hnl.2.1).2.1
  · intro n d m hn hd hmm
    constructor
    · rw [hPv [n, d, m] (by rw [hr3]; exact ⟨hn, hd, hmm, trivial⟩), lomProb_eq]
      simp only [Lom8.outer, Lom8.inner]
      rw [bernProb_OR]
      simp only [bernProb_AND]
      congr 2
      refine Finset.prod_congr rfl fun l _ => ?_
      rw [(ma n l hn l.2).1, (mb d l hd l.2).1, (mc m l hmm l.2).1]
      congr 1
      exact Fin.prod_univ_three _
    · rw [hQv [n, d, m] (by rw [hr3]; exact ⟨hn, hd, hmm, trivial⟩)]
      refine congrArg asProb (propext ?_)
      constructor
      · rintro ⟨l, hl⟩
        refine ⟨l, l.2, (ma n l hn l.2).2.2.1 (hl (0 : Fin 3)), (mb d l hd l.2).2.2.1 (hl (1 : Fin 3)),
          (mc m l hmm l.2).2.2.1 (hl (2 : Fin 3))⟩
      · rintro ⟨l, hl, h1, h2, h3⟩
        refine ⟨⟨l, hl⟩, fun (k : Fin 3) => ?_⟩
        fin_cases k
        · exact (ma n l hn hl).2.2.2 h1
        · exact (mb d l hd hl).2.2.2 h2
        · exact (mc m l hmm hl).2.2.2 h3

/-- **C93**: matrices are not supported: `layer.v` does not exist -/
theorem C93_matrices_fail (argsort : Arr ℝ → List Nat) (X : Arr Int) (int8 : Bool) (L : Nat) (dr : Draws)
    (hX : X.shape.length = 2) (hinit : ∀ k idx, IsPM (dr.init k idx)) (hperm : ∀ t l, ∀ i ∈ dr.perm t l, i ∈ l) :
    tensorm_reconstruct argsort X int8 L dr = .error .indexError := by
  obtain ⟨s, hm, hrow, hlen, hf, hS, hrun⟩ := reconstruct_run argsort X int8 L dr (.inl hX) hinit hperm
  have hS' : ∀ f ∈ s.factors, f.trace ≠ some [] := by
    intro f hfm
    obtain ⟨tr, h1, h2⟩ := hS f hfm
    rw [h1]
    rintro ⟨⟩
    simp at h2
  obtain ⟨P, hP, -⟩ := factor_mean_exact argsort s .OR_AND L L (.inl (by rw [hlen, hX])) hf hS' (.inl rfl) hm
  have hne : s.factors ≠ [] := by
    intro h
    rw [h, hX] at hlen
    simp at hlen
  obtain ⟨Q, hQ, -⟩ := C84_factor_map argsort { s with prediction := some P } .OR .AND L L hne hf hS' (.inl rfl) (.inl hm)
  rw [hrun P Q hP hQ]
  rw [hX] at hlen
  obtain ⟨a, b, h⟩ := List.length_eq_two.1 hlen
  rw [h]

/-- **C93**: the coding of the data does not matter: zeros and ones are reconstructed as minus ones and ones are (unless there
are ones only, when the two codings are the same) -/
theorem C93_coding (argsort : Arr ℝ → List Nat) (X : Arr Int) (int8 : Bool) (L : Nat) (dr : Draws)
    (hX : ∀ idx, X idx = 0 ∨ X idx = 1) (h0 : ∃ idx, InB X.shape idx ∧ X idx = 0) :
    tensorm_reconstruct argsort X int8 L dr = tensorm_reconstruct argsort (X.map fun x => if x = 1 then 1 else -1) int8 L dr := by
  have e : tensormData X int8 = tensormData (X.map fun x => if x = 1 then 1 else -1) int8 := by
    obtain ⟨j, hj, hj0⟩ := h0
    have w : ∀ idx, wrap8 (X idx) = X idx := by
      intro idx
      rcases hX idx with h | h <;> rw [h] <;> decide
    have w' : ∀ idx, wrap8 (if X idx = 1 then 1 else -1) = if X idx = 1 then 1 else -1 := by
      intro idx
      rcases hX idx with h | h <;> rw [h] <;> decide
    have wm : X.map wrap8 = X := by
      obtain ⟨sh, f⟩ := X
      exact congrArg (Arr.mk sh) (funext w)
    have wm' : (X.map fun x => if x = 1 then 1 else -1).map wrap8 = X.map fun x => if x = 1 then 1 else -1 := by
      obtain ⟨sh, f⟩ := X
      exact congrArg (Arr.mk sh) (funext w')
    unfold tensormData
    rw [wm, wm', ite_self, ite_self]
    simp only
    rw [if_pos fun idx _ => hX idx, if_neg]
    · obtain ⟨sh, f⟩ := X
      refine congrArg (Arr.mk sh) (funext fun idx => ?_)
      show wrap8 (2 * f idx - 1) = if f idx = 1 then 1 else -1
      have := hX idx
      rcases this with h | h
      · have h : f idx = 0 := h
        rw [h]; decide
      · have h : f idx = 1 := h
        rw [h]; decide
    · intro hc
      have := hc j (mem_indices.mpr hj)
      have hv : (X.map fun x => if x = 1 then 1 else -1) j = -1 := by
        show (if X j = 1 then (1 : Int) else -1) = -1
        rw [hj0]; rfl
      rw [hv] at this
      omega
  unfold tensorm_reconstruct
  rw [e]

/-- **C93**: missing cells (zeros) stay missing only if some cell is a minus one (or another value that is not 0 or 1).
Otherwise the machine is given minus ones in their place, and no cell is missing. -/
theorem C93_missing_wrong (X : Arr Int) (int8 : Bool) :
    ((∃ idx, InB X.shape idx ∧ X idx = -1) → ∀ idx, X idx = 0 → tensormData X int8 idx = 0) ∧
    ((∀ idx, InB X.shape idx → X idx = 0 ∨ X idx = 1) → ∀ idx, InB X.shape idx →
      (X idx = 0 → tensormData X int8 idx = -1) ∧ (X idx = 1 → tensormData X int8 idx = 1)) := by
  have hsh : (if int8 = true then X else X.map wrap8).shape = X.shape := by cases int8 <;> rfl
  have hval : ∀ idx, -1 ≤ X idx → X idx ≤ 1 → (if int8 = true then X else X.map wrap8) idx = X idx := by
    intro idx h1 h2
    cases int8 with
    | true => rfl
    | false =>
      show wrap8 (X idx) = X idx
      have : X idx = -1 ∨ X idx = 0 ∨ X idx = 1 := by omega
      rcases this with h | h | h <;> rw [h] <;> decide
  unfold tensormData
  simp only
  rw [hsh]
  refine ⟨?_, ?_⟩
  · rintro ⟨j, hj, hj1⟩ idx h0
    rw [if_neg]
    · rw [hval idx (by omega) (by omega), h0]
    · intro hc
      have := hc j (mem_indices.mpr hj)
      rw [hval j (by omega) (by omega)] at this
      omega
  · intro hall idx hidx
    rw [if_pos]
    · show (X idx = 0 → wrap8 (2 * (if int8 = true then X else X.map wrap8) idx - 1) = -1) ∧
        (X idx = 1 → wrap8 (2 * (if int8 = true then X else X.map wrap8) idx - 1) = 1)
      have := hall idx hidx
      rw [hval idx (by omega) (by omega)]
      exact ⟨fun h => by rw [h]; decide, fun h => by rw [h]; decide⟩
    · intro j hj
      have := hall j (mem_indices.mp hj)
      rw [hval j (by omega) (by omega)]
      exact this

/-- the hypotheses of C93 are met: a tensor of zeros and ones -/
theorem C93_hypotheses_met : ∃ (X : Arr Int) (dr : Draws), X.shape = [2, 2, 3] ∧ (∀ idx, X idx = 0 ∨ X idx = 1) ∧
    (∃ idx, InB X.shape idx ∧ X idx = 0) ∧ (∃ idx, InB X.shape idx ∧ X idx = 1) ∧
    (∀ k idx, IsPM (dr.init k idx)) ∧ ∀ t l, ∀ i ∈ dr.perm t l, i ∈ l :=
  ⟨⟨[2, 2, 3], fun idx => if idx = [0, 1, 2] then 1 else 0⟩,
    ⟨fun _ idx => if idx.headD 0 = 0 then 1 else -1, fun _ _ _ => 0, fun _ l => l.reverse, fun _ _ _ _ => .fin 0,
      fun _ _ _ => .fin 0, fun _ _ => 0⟩, rfl, fun idx => by
      show (if idx = [0, 1, 2] then (1 : Int) else 0) = 0 ∨ (if idx = [0, 1, 2] then (1 : Int) else 0) = 1
      split_ifs <;> simp,
    ⟨[0, 0, 0], ⟨by decide, by decide, by decide, trivial⟩, by simp⟩,
    ⟨[0, 1, 2], ⟨by decide, by decide, by decide, trivial⟩, by simp⟩, fun k idx => by
      show IsPM (if idx.headD 0 = 0 then 1 else -1)
      split_ifs <;> simp [IsPM], fun _ _ _ h => by simpa using h⟩

end LFM
