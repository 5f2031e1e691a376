import Verif.Spec.Unheard
import Verif.Lemmas.Deaf
import Verif.Lemmas.RelabelData

/-! Sampling factors none of whose entries has an effect on any prediction when its turn comes. -/

namespace LFM

open Spec

theorem tasks2_sorted (N L : Nat) :
    (tasks2 N L).Pairwise fun a b => i0 a < i0 b ∨ (i0 a = i0 b ∧ i1 a < i1 b) := by
  unfold tasks2
  rw [List.pairwise_flatMap]
  refine ⟨fun n _ => ?_, ?_⟩
  · rw [List.pairwise_map]
    refine List.pairwise_lt_range.imp fun h => .inr ⟨rfl, ?_⟩
    simpa [i1] using h
  · refine List.pairwise_lt_range.imp fun h x hx y hy => ?_
    obtain ⟨l, -, rfl⟩ := List.mem_map.1 hx
    obtain ⟨l', -, rfl⟩ := List.mem_map.1 hy
    exact .inl (by simpa [i0] using h)

theorem before_iff {N L n l : Nat} {pre ts : List (List Nat)} (h : tasks2 N L = pre ++ [n, l] :: ts) {l' : Nat} (hl' : l' < L)
    (hne : l' ≠ l) : [n, l'] ∈ pre ↔ l' < l := by
  have hs := tasks2_sorted N L
  have hmem : [n, l] ∈ tasks2 N L := by rw [h]; simp
  obtain ⟨a, ha, b, hb, e⟩ := mem_tasks2.mp hmem
  simp only [List.cons.injEq, and_true] at e
  obtain ⟨rfl, rfl⟩ := e
  rw [h, List.pairwise_append] at hs
  obtain ⟨-, s2, s3⟩ := hs
  constructor
  · intro hp
    have := s3 _ hp _ (List.mem_cons_self ..)
    simpa [i0, i1] using this
  · intro hlt
    have : [n, l'] ∈ tasks2 N L := mem_tasks2.mpr ⟨n, ha, l', hl', rfl⟩
    rw [h, List.mem_append, List.mem_cons] at this
    rcases this with hp | hp | hp
    · exact hp
    · simp only [List.cons.injEq, and_true, true_and] at hp
      exact absurd hp hne
    · have := (List.pairwise_cons.mp s2).1 _ hp
      simp only [i0, i1, List.getD_cons_zero, List.getD_cons_succ, lt_self_iff_false, true_and, false_or] at this
      omega

/-- a row at the turn of entry `l` -/
def midRow (val fe : Arr Int) (n l : Nat) : Nat → Int :=
  fun l' => if l' < l ∧ fe [n, l'] ≠ 1 then -val [n, l'] else val [n, l']

/-- if the score of every free entry is zero at its turn, then every free entry is flipped -/
theorem sweep_unheard (g : Arr Int → List Nat → ℝ) (Zf : Arr Int) (rnd : Rnd) {N L : Nat} (Z : Arr Int) (hs : Z.shape = [N, L])
    (hp : PMArr Z) (hg : ∀ n < N, ∀ l < L, Zf [n, l] ≠ 1 → ∀ Y : Arr Int, Y.shape = [N, L] → PMArr Y →
      (∀ l' < L, l' ≠ l → Y [n, l'] = midRow Z Zf n l l') → g Y [n, l] = 0) :
    sweep g Zf rnd (tasks2 N L) Z = sweep (fun _ _ => 0) Zf rnd (tasks2 N L) Z := by
  have hpm : ∀ i ∈ tasks2 N L, IsPM (Z i) := by
    intro i hi
    obtain ⟨a, ha, b, hb, rfl⟩ := mem_tasks2.mp hi
    exact hp _ (by rw [hs]; exact ⟨ha, hb, trivial⟩)
  have key : ∀ (ts pre : List (List Nat)), tasks2 N L = pre ++ ts →
      sweep g Zf rnd ts (sweep (fun _ _ => 0) Zf rnd pre Z) = sweep (fun _ _ => 0) Zf rnd ts (sweep (fun _ _ => 0) Zf rnd pre Z) := by
    intro ts
    induction ts with
    | nil => intro pre _; rfl
    | cons t ts ih =>
      intro pre h
      obtain ⟨n, hn, l, hl, rfl⟩ := mem_tasks2.mp (show t ∈ tasks2 N L by rw [h]; simp)
      have hnd : pre.Nodup := by
        have := nodup_tasks2 N L
        rw [h] at this
        exact (List.nodup_append.mp this).1
      have hz := sweep_zero Zf rnd pre hnd Z fun i hi => hpm i (by rw [h]; simp [hi])
      obtain ⟨Y, hY⟩ : ∃ Y, Y = sweep (fun _ _ => 0) Zf rnd pre Z := ⟨_, rfl⟩
      have hYs : Y.shape = [N, L] := by rw [hY, (sweep_entry _ _ _ _ _).1, hs]
      have hYp : PMArr Y := by
        intro j hj
        rw [hYs] at hj
        have := hp j (by rw [hs]; exact hj)
        rw [hY, hz]
        split
        · rcases this with e | e <;> rw [e] <;> simp [IsPM]
        · exact this
      have e : updEntry g Zf rnd Y [n, l] = updEntry (fun _ _ => 0) Zf rnd Y [n, l] := by
        unfold updEntry
        split
        · rfl
        · rename_i hf
          rw [hg n hn l hl hf Y hYs hYp]
          intro l' hl' hne
          rw [hY, hz]
          unfold midRow
          simp only [before_iff h hl' hne]
      rw [← hY]
      show sweep g Zf rnd ts (updEntry g Zf rnd Y [n, l]) = sweep _ Zf rnd ts (updEntry _ Zf rnd Y [n, l])
      rw [e]
      have e2 : updEntry (fun _ _ => 0) Zf rnd Y [n, l] = sweep (fun _ _ => 0) Zf rnd (pre ++ [[n, l]]) Z := by
        rw [hY]
        simp [sweep, List.foldl_append]
      rw [e2]
      exact ih (pre ++ [[n, l]]) (by rw [h]; simp)
  exact key (tasks2 N L) [] rfl

/-- a sampling function with prior 1/2 flips every entry that is not fixed, if none has an effect at its turn -/
theorem unheard_run {lom : Lom8} {K j : Nat} (hK : K = 2 ∨ K = 3) {s : Sampler}
    (h : GenericSampler lom K j s)
    (h0 : ∃ f o, s = .lom f o 0) {mat : Member} {fs : List Member} (hf : fs.length = K) {k : Nat} (hk : k < K)
    {child : Arr Int} {lbda : ℝ} {rnd : Rnd} {R : Arr Int} (hR : s.run mat fs k child lbda [] rnd = .ok R) {N L : Nat}
    (hs : mat.val.shape = [N, L]) (hp : PMArr mat.val)
    (hfs : ∀ F ∈ fs, (∃ D, F.val.shape = [D, L]) ∧ PMArr F.val)
    (h2 : ∀ a, fs.eraseIdx k = [a] → ∀ n < N, ∀ d < a.val.dim 0, ∀ l < L, mat.fixed_entries [n, l] ≠ 1 →
      pred2 lom L (setEntry (midRow mat.val mat.fixed_entries n l) l 1) (fun l => a.val [d, l]) =
        pred2 lom L (setEntry (midRow mat.val mat.fixed_entries n l) l (-1)) (fun l => a.val [d, l]))
    (h3 : ∀ a b, fs.eraseIdx k = [a, b] → ∀ n < N, ∀ d < a.val.dim 0, ∀ e < b.val.dim 0, ∀ l < L, mat.fixed_entries [n, l] ≠ 1 →
      pred3 lom L (setEntry (midRow mat.val mat.fixed_entries n l) l 1) (fun l => a.val [d, l]) (fun l => b.val [e, l]) =
        pred3 lom L (setEntry (midRow mat.val mat.fixed_entries n l) l (-1)) (fun l => a.val [d, l]) (fun l => b.val [e, l])) :
    ∀ n < N, ∀ l < L, R [n, l] = if mat.fixed_entries [n, l] = 1 then mat.val [n, l] else -mat.val [n, l] := by
  have hd : mat.val.dim 0 = N ∧ mat.val.dim 1 = L := by simp [Arr.dim, hs]
  have hz : ∀ n < N, ∀ l < L, sweep (fun _ _ => 0) mat.fixed_entries rnd (tasks2 N L) mat.val [n, l] =
      if mat.fixed_entries [n, l] = 1 then mat.val [n, l] else -mat.val [n, l] := by
    intro n hn l hl
    rw [sweep_zero _ _ _ (nodup_tasks2 N L)]
    · have : [n, l] ∈ tasks2 N L := mem_tasks2.mpr ⟨n, hn, l, hl, rfl⟩
      by_cases h1 : mat.fixed_entries [n, l] = 1 <;> simp [this, h1]
    · intro i hi
      obtain ⟨a, ha, b, hb, rfl⟩ := mem_tasks2.mp hi
      exact hp _ (by rw [hs]; exact ⟨ha, hb, trivial⟩)
  have hrow : ∀ Y : Arr Int, Y.shape = [N, L] → PMArr Y → ∀ n < N, (Y.row n).shape = [L] ∧ PMArr (Y.row n) := by
    intro Y hY hpY n hn
    have e : (Y.row n).shape = [L] := by simp [Arr.row, hY]
    refine ⟨e, fun idx hidx => ?_⟩
    rw [e] at hidx
    match idx, hidx with
    | [l], hidx => exact hpY [n, l] (by rw [hY]; exact ⟨hn, hidx.1, trivial⟩)
  have hset : ∀ (Y : Arr Int) (n l : Nat), (∀ l' < L, l' ≠ l → Y [n, l'] = midRow mat.val mat.fixed_entries n l l') → ∀ v, ∀ l' < L,
      setEntry (fun l => (Y.row n) [l]) l v l' = setEntry (midRow mat.val mat.fixed_entries n l) l v l' := by
    intro Y n l hYr v l' hl'
    unfold setEntry
    split
    · rfl
    · rename_i hne
      exact hYr l' hl' hne
  obtain ⟨f0, o0, h0⟩ := h0
  obtain ⟨ms, prior, hms, hs'⟩ := h
  have hlen : ((siblings fs k).map Member.val).length = K - 1 := by
    simp [siblings, List.length_eraseIdx, hf, hk]
  have hsib : ∀ F ∈ siblings fs k, (∃ D, F.val.shape = [D, L]) ∧ PMArr F.val := by
    intro F hF
    unfold siblings at hF
    rw [List.mem_mergeSort] at hF
    exact hfs F (List.mem_of_mem_eraseIdx hF)
  have hperm : (siblings fs k).Perm (fs.eraseIdx k) := by
    unfold siblings
    exact List.mergeSort_perm _ _
  rcases hK with rfl | rfl
  · obtain ⟨f, hf', hw⟩ := C14_score_2d_wraps lom
    have hmk := make_onechild2 lom hf'
    rw [dispatch_onechild (by rw [hms]; exact relatives2 lom) (generic_code2 lom), hmk] at hs'
    simp only [Except.map, Except.ok.injEq] at hs'
    rw [h0] at hs'
    obtain ⟨a, ha⟩ := List.length_eq_one_iff.mp ((List.length_map (f := Member.val) (as := siblings fs k)).symm.trans hlen)
    simp only [Sampler.lom.injEq] at hs'
    obtain ⟨e1, e2, e3⟩ := hs'
    subst h0
    rw [← e1] at hR
    simp only [Sampler.run, ha, List.map_cons, List.map_nil, Except.ok.injEq] at hR
    rw [sampling_onechild_2D_eq, hd.1, hd.2] at hR
    obtain ⟨⟨D, hD⟩, hpa⟩ := hsib a (by rw [ha]; simp)
    have hea : fs.eraseIdx k = [a] := by
      rw [ha] at hperm
      exact List.perm_singleton.mp hperm.symm
    rw [sweep_unheard _ _ _ _ hs hp] at hR
    · rw [← hR]
      exact hz
    · intro n hn l hl hfe Y hY hpY hYr
      obtain ⟨r1, r2⟩ := hrow Y hY hpY n hn
      obtain ⟨S, hS, hS2⟩ := hw D L (Y.row n) a.val ((child.transpose o0).row n) l hl r1 hD r2 hpa
      have hz0 : twiceScore2 lom D L (fun l => (Y.row n) [l]) (fun d l => a.val [d, l]) (fun d => ((child.transpose o0).row n) [d]) l = 0 := by
        unfold twiceScore2
        refine Finset.sum_eq_zero fun d _ => ?_
        rw [pred2_rows lom L (hset Y n l hYr 1) (fun _ _ => rfl), pred2_rows lom L (hset Y n l hYr (-1)) (fun _ _ => rfl),
          h2 a hea n hn d (by simp [Arr.dim, hD]) l hl hfe, sub_self, mul_zero]
      rw [hz0] at hS2
      obtain rfl : S = 0 := by omega
      show lbda * ((f (Y.row n) a.val ((child.transpose o0).row n) l : Int) : ℝ) + 0 = 0
      rw [hS]
      norm_num [wrap16]
  · obtain ⟨f, hf', hw⟩ := C15_score_3d_wraps lom
    have hmk := make_onechild3 lom hf'
    rw [dispatch_onechild (by rw [hms]; exact relatives3 lom) (generic_code3 lom), hmk] at hs'
    simp only [Except.map, Except.ok.injEq] at hs'
    rw [h0] at hs'
    obtain ⟨a, b, ha⟩ := List.length_eq_two.mp ((List.length_map (f := Member.val) (as := siblings fs k)).symm.trans hlen)
    simp only [Sampler.lom.injEq] at hs'
    obtain ⟨e1, e2, e3⟩ := hs'
    subst h0
    rw [← e1] at hR
    simp only [Sampler.run, ha, List.map_cons, List.map_nil, Except.ok.injEq] at hR
    rw [sampling_onechild_3D_eq, hd.1, hd.2] at hR
    obtain ⟨⟨D, hD⟩, hpa⟩ := hsib a (by rw [ha]; simp)
    obtain ⟨⟨M, hM⟩, hpb⟩ := hsib b (by rw [ha]; simp)
    have hea : fs.eraseIdx k = [a, b] ∨ fs.eraseIdx k = [b, a] := by
      rw [ha] at hperm
      exact List.perm_pair.mp hperm.symm
    rw [sweep_unheard _ _ _ _ hs hp] at hR
    · rw [← hR]
      exact hz
    · intro n hn l hl hfe Y hY hpY hYr
      obtain ⟨r1, r2⟩ := hrow Y hY hpY n hn
      obtain ⟨S, hS, hS2⟩ := hw D M L (Y.row n) a.val b.val ((child.transpose o0).row n) l hl r1 hD hM r2 hpa hpb
      have hz0 : twiceScore3 lom D M L (fun l => (Y.row n) [l]) (fun d l => a.val [d, l]) (fun d l => b.val [d, l])
          (fun d e => ((child.transpose o0).row n) [d, e]) l = 0 := by
        unfold twiceScore3
        refine Finset.sum_eq_zero fun d _ => Finset.sum_eq_zero fun e _ => ?_
        rw [pred3_rows lom L (hset Y n l hYr 1) (fun _ _ => rfl) (fun _ _ => rfl),
          pred3_rows lom L (hset Y n l hYr (-1)) (fun _ _ => rfl) (fun _ _ => rfl)]
        have : ∀ z : Nat → Int, pred3 lom L z (fun l => a.val [d, l]) (fun l => b.val [e, l]) =
            pred3 lom L z (fun l => b.val [e, l]) (fun l => a.val [d, l]) := by
          intro z
          exact (pred3_perm lom L ![z, fun l => a.val [d, l], fun l => b.val [e, l]] (Equiv.swap 1 2)).symm
        rcases hea with hea | hea
        · rw [h3 a b hea n hn d (by simp [Arr.dim, hD]) e (by simp [Arr.dim, hM]) l hl hfe, sub_self, mul_zero]
        · rw [this, this, h3 b a hea n hn e (by simp [Arr.dim, hM]) d (by simp [Arr.dim, hD]) l hl hfe, sub_self, mul_zero]
      rw [hz0] at hS2
      obtain rfl : S = 0 := by omega
      show lbda * ((f (Y.row n) a.val b.val ((child.transpose o0).row n) l : Int) : ℝ) + 0 = 0
      rw [hS]
      norm_num [wrap64]

end LFM
