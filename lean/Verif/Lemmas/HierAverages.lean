import Verif.Lemmas.Averages
import Verif.Props.Consistent
import Verif.Props.Mixing
import Verif.Spec.Averages

/-!
# Lemmas: averages over the samples of a hierarchical machine with random orders of updates
-/

namespace LFM

open Spec MeasureTheory

section
variable {S : Type} [Fintype S] [DecidableEq S]

theorem pw_path {P : S → S → ENNReal} (n : Nat) {x y : S} (hn : pw P n x y ≠ 0) :
    Relation.ReflTransGen (fun a b => P a b ≠ 0) x y := by
  induction n generalizing y with
  | zero =>
    rw [pw_zero] at hn
    have : x = y := by
      by_contra hc
      exact hn (if_neg hc)
    rw [this]
  | succ n ih =>
    rw [pw_add] at hn
    obtain ⟨z, -, hz⟩ := Finset.exists_ne_zero_of_sum_ne_zero hn
    refine (ih (left_ne_zero_of_mul hz)).tail ?_
    have := right_ne_zero_of_mul hz
    rwa [pw_one] at this

/-- steps that keep the distribution can be reversed -/
theorem path_back {P : S → S → ENNReal} {w : S → ENNReal} (hst : ∀ x, ∑ y, P x y = 1) (h : ∀ z, ∑ x, w x * P x z = w z)
    (hw : ∀ x, w x ≠ 0) (hw' : ∀ x, w x ≠ ⊤) {x y : S} (hxy : Relation.ReflTransGen (fun a b => P a b ≠ 0) x y) :
    Relation.ReflTransGen (fun a b => P a b ≠ 0) y x := by
  classical
  obtain ⟨C, hC⟩ : ∃ C : Finset S, C = Finset.univ.filter fun z => Relation.ReflTransGen (fun a b => P a b ≠ 0) y z := ⟨_, rfl⟩
  have hmem : ∀ z, z ∈ C ↔ Relation.ReflTransGen (fun a b => P a b ≠ 0) y z := by intro z; rw [hC]; simp
  have hback := closed_compl hst h hw hw' C (fun a ha b hab => (hmem b).2 (((hmem a).1 ha).tail hab))
  rw [← hmem]
  have key : ∀ z, Relation.ReflTransGen (fun a b => P a b ≠ 0) z y → z ∈ C := by
    intro z hz
    induction hz using Relation.ReflTransGen.head_induction_on with
    | refl => exact (hmem y).2 Relation.ReflTransGen.refl
    | head hab _ ih => exact hback _ _ ih hab
  exact key x hxy

theorem link_path {P : S → S → ENNReal} {w : S → ENNReal} (hst : ∀ x, ∑ y, P x y = 1) (h : ∀ z, ∑ x, w x * P x z = w z)
    (hw : ∀ x, w x ≠ 0) (hw' : ∀ x, w x ≠ ⊤) {link : S → S → Prop}
    (hlink : ∀ x y, link x y → (pw P 2 x y ≠ 0 ∨ pw P 2 y x ≠ 0) ∨ P x y ≠ 0) {x y : S} (hxy : Relation.ReflTransGen link x y) :
    Relation.ReflTransGen (fun a b => P a b ≠ 0) x y := by
  induction hxy with
  | refl => exact Relation.ReflTransGen.refl
  | tail _ hcd ih =>
    rcases hlink _ _ hcd with (h2 | h2) | h2
    · exact ih.trans (pw_path 2 h2)
    · exact ih.trans (path_back hst h hw hw' (pw_path 2 h2))
    · exact ih.tail h2

end

namespace Spec.Hier

variable {h : Hier}

open Classical in
/-- sweeps of a machine with random orders, as steps that depend on the order of each sweep -/
theorem given_times {free : h.Site → Prop} {s0 : h.State} (wr : Wiring) {mats : List Nat} {T : Nat} (σ : Orders mats T) (c n : Nat)
    (hT : c + n ≤ T) (x y : h.Given free s0) :
    schedule (fun j => schedule (fun (q : {q : h.Site // free q}) (s s' : h.Given free s0) => bitK noFix q.1 s.1 s'.1)
        (h.orderOf free ((withOrders wr σ).perm (c + j) mats))) (List.range n) x y =
      schedule (fun t => schedule (fun (q : {q : h.Site // free q}) (s s' : h.Given free s0) => bitK noFix q.1 s.1 s'.1)
        (h.allOrders free mats (σ t))) ((List.finRange n).map fun j : Fin n => (⟨c + j, by have := j.2; omega⟩ : Fin T)) x y := by
  rw [schedule_map, ← List.map_coe_finRange_eq_range, schedule_map]
  refine schedule_congr _ (fun j _ => ?_) _ _
  have hj : c + (j : Nat) < T := by have := j.2; omega
  unfold withOrders allOrders
  simp only [dif_pos hj]

open Classical in
/-- the sweep with random orders -/
noncomputable abbrev sweepGiven (h : Hier) (free : h.Site → Prop) (s0 : h.State) (mats : List Nat) :
    h.Given free s0 → h.Given free s0 → ENNReal :=
  oneSweep (fun (q : {q : h.Site // free q}) (s s' : h.Given free s0) => bitK noFix q.1 s.1 s'.1) (h.allOrders free mats)

open Classical in
/-- joint distribution of the states after two numbers of sweeps -/
theorem joint_average {wr : Wiring} {m : Mach Sampler LbdaUpdate} (hm : h.FixedLbdas wr m)
    {free : h.Site → Prop} {s0 : h.State} (fe : Nat → Arr Int) (hfe : ∀ q, free q ↔ h.Sampled m fe q) (T n d : Nat)
    (hT : m.clock + (n + d) ≤ T) (s x y : h.State) (hs : h.Agree free s s0) :
    ∑ σ : Orders (freeMats m) T, h.allDraws T {ω |
        runSteps (fun p => matStep fe p.2) ω (sweepsSched h (withOrders wr σ).perm (freeMats m) T m.clock n) s = x ∧
        runSteps (fun p => matStep fe p.2) ω (sweepsSched h (withOrders wr σ).perm (freeMats m) T m.clock (n + d)) s = y} =
      Fintype.card (Orders (freeMats m) T) * if hz : h.Agree free x s0 ∧ h.Agree free y s0 then
        pw (h.sweepGiven free s0 (freeMats m)) n ⟨s, hs⟩ ⟨x, hz.1⟩ * pw (h.sweepGiven free s0 (freeMats m)) d ⟨x, hz.1⟩ ⟨y, hz.2⟩ else 0 := by
  have hne : Nonempty {l : List Nat // l ∈ (freeMats m).permutations.toFinset} :=
    ⟨⟨freeMats m, by rw [List.mem_toFinset, List.mem_permutations]⟩⟩
  have hterm : ∀ σ : Orders (freeMats m) T, h.allDraws T {ω |
        runSteps (fun p => matStep fe p.2) ω (sweepsSched h (withOrders wr σ).perm (freeMats m) T m.clock n) s = x ∧
        runSteps (fun p => matStep fe p.2) ω (sweepsSched h (withOrders wr σ).perm (freeMats m) T m.clock (n + d)) s = y} =
      if hz : h.Agree free x s0 ∧ h.Agree free y s0 then
        schedule (fun t => schedule (fun (q : {q : h.Site // free q}) (s s' : h.Given free s0) => bitK noFix q.1 s.1 s'.1)
          (h.allOrders free (freeMats m) (σ t))) ((List.finRange n).map fun j : Fin n => (⟨m.clock + j, by have := j.2; omega⟩ : Fin T))
          ⟨s, hs⟩ ⟨x, hz.1⟩ *
        schedule (fun t => schedule (fun (q : {q : h.Site // free q}) (s s' : h.Given free s0) => bitK noFix q.1 s.1 s'.1)
          (h.allOrders free (freeMats m) (σ t))) ((List.finRange d).map fun j : Fin d => (⟨m.clock + n + j, by have := j.2; omega⟩ : Fin T))
          ⟨x, hz.1⟩ ⟨y, hz.2⟩ else 0 := by
    intro σ
    have hp := withOrders_perm (mats := freeMats m) wr σ
    have hnd := sweepsSched_nodup (h := h) (T := T) hp hm.nodup hm.free (n + d) m.clock
    rw [sweepsSched_add] at hnd ⊢
    have hj := runSteps_joint (fun p : Fin T × Fin h.M => uniformDraws (h.rows p.2) (h.cols p.2))
        (step := fun p => matStep fe p.2) (fun p s s' => matStep_event fe p.2 s s') _ _ hnd s x y
    refine hj.trans ?_
    rw [sweeps_given (free := free) (s0 := s0) _ (freeMats m) hp fe hfe T m.clock n (by omega) s x hs]
    by_cases hx : h.Agree free x s0
    · rw [dif_pos hx, sweeps_given (free := free) (s0 := s0) _ (freeMats m) hp fe hfe T (m.clock + n) d (by omega) x y hx]
      by_cases hy : h.Agree free y s0
      · rw [dif_pos hy, dif_pos ⟨hx, hy⟩, given_times wr σ m.clock n (by omega), given_times wr σ (m.clock + n) d (by omega)]
      · rw [dif_neg hy, dif_neg (fun hz => hy hz.2), mul_zero]
    · rw [dif_neg hx, dif_neg (fun hz => hx hz.1), zero_mul]
  simp only [hterm]
  by_cases hz : h.Agree free x s0 ∧ h.Agree free y s0
  · simp only [dif_pos hz]
    rw [average_joint (ι := Fin T) (fun i => schedule (fun (q : {q : h.Site // free q}) (s s' : h.Given free s0) => bitK noFix q.1 s.1 s'.1)
      (h.allOrders free (freeMats m) i))]
    · simp only [schedule_const, List.length_map, List.length_finRange]
      rfl
    · rw [List.nodup_append]
      refine ⟨(List.nodup_finRange n).map fun a b hab => ?_, (List.nodup_finRange d).map fun a b hab => ?_, ?_⟩
      · have := congrArg Fin.val hab
        simp only at this
        exact Fin.ext (by omega)
      · have := congrArg Fin.val hab
        simp only at this
        exact Fin.ext (by omega)
      · rintro a ha b hb rfl
        obtain ⟨i, -, hi⟩ := List.mem_map.1 ha
        obtain ⟨j, -, hj⟩ := List.mem_map.1 hb
        have h1 := congrArg Fin.val hi
        have h2 := congrArg Fin.val hj
        simp only at h1 h2
        have := i.2
        omega
  · simp only [dif_neg hz, Finset.sum_const_zero, mul_zero]

theorem opposite_agree {free : h.Site → Prop} {s s0 : h.State} (hs : h.Agree free s s0) : h.Agree free (opposite free s) s0 := by
  intro q hq
  unfold opposite
  rw [if_neg hq]
  exact hs q hq

theorem opposite_opposite (free : h.Site → Prop) (s : h.State) : opposite free (opposite free s) = s := by
  funext i e
  unfold opposite
  split <;> simp

section
variable {free : h.Site → Prop} {s0 : h.State} {mats : List Nat}

open Classical in
theorem opposite_step (H : h.Legal) (hnd : mats.Nodup) (hfree : ∀ q : h.Site, free q → (q.1 : Nat) ∈ mats) (y : h.Given free s0) :
    h.sweepGiven free s0 mats y ⟨opposite free y.1, opposite_agree y.2⟩ ≠ 0 := by
  obtain ⟨i⟩ : Nonempty {l : List Nat // l ∈ mats.permutations.toFinset} :=
    ⟨⟨mats, by rw [List.mem_toFinset, List.mem_permutations]⟩⟩
  refine Moves.oneSweep_ne (os := h.allOrders free mats) i ?_
  have h1 := (moves (free := free) (s0 := s0) H).all_flip (h.allOrders free mats i) y
  have h2 := flips_opposite ((order_perm i).nodup_iff.2 hnd) (fun q hq => (order_perm i).mem_iff.2 (hfree q hq)) y
  have h3 : (⟨opposite free y.1, opposite_agree y.2⟩ : h.Given free s0) =
      flipAll (fun (q : {q : h.Site // free q}) (s : h.Given free s0) => (⟨flipAt q.1 s.1, s.2.flipAt q.2⟩ : h.Given free s0))
        (h.allOrders free mats i) y := Subtype.ext h2.symm
  rw [h3]
  exact h1

/-- changes of states with given entries -/
def linkGiven (h : Hier) (free : h.Site → Prop) (s0 : h.State) (mats : List Nat) (a b : h.Given free s0) : Prop :=
  linked (fun (q : {q : h.Site // free q}) (s : h.Given free s0) => (⟨flipAt q.1 s.1, s.2.flipAt q.2⟩ : h.Given free s0))
    (fun s => h.joint s.1) (h.allOrders free mats) a b ∨ b.1 = opposite free a.1

theorem linking_given (hnd : mats.Nodup) (hfree : ∀ q : h.Site, free q → (q.1 : Nat) ∈ mats) (hl : h.Linking free s0)
    (a b : h.Given free s0) : Relation.ReflTransGen (h.linkGiven free s0 mats) a b := by
  have key : ∀ s', Relation.ReflTransGen (fun a b => (∃ q, Matters free a q ∧ DifferAt a b q) ∨ b = opposite free a) a.1 s' →
      ∃ hs : h.Agree free s' s0, Relation.ReflTransGen (h.linkGiven free s0 mats) a ⟨s', hs⟩ := by
    intro s' hs'
    induction hs' with
    | refl => exact ⟨a.2, Relation.ReflTransGen.refl⟩
    | @tail c d _ hcd ih =>
      obtain ⟨hc, hp⟩ := ih
      rcases hcd with ⟨q, hq, hd⟩ | rfl
      · have hd' := (differAt_iff c d q).1 hd
        have hdA : h.Agree free d s0 := by
          rw [hd']
          exact hc.flipAt hq.1
        exact ⟨hdA, hp.tail (Or.inl ((linked_iff hnd hfree ⟨c, hc⟩ ⟨d, hdA⟩).2 ⟨q, hq, hd⟩))⟩
      · exact ⟨opposite_agree hc, hp.tail (Or.inr rfl)⟩
  obtain ⟨hs, hp⟩ := key b.1 (hl a.1 b.1 a.2 b.2)
  exact hp

open Classical in
/-- from one state to another by sweeps -/
theorem linking_path (H : h.Legal) (hnd : mats.Nodup) (hfree : ∀ q : h.Site, free q → (q.1 : Nat) ∈ mats) (hl : h.Linking free s0)
    (a b : h.Given free s0) : Relation.ReflTransGen (fun a b => h.sweepGiven free s0 mats a b ≠ 0) a b := by
  have hne : Nonempty {l : List Nat // l ∈ mats.permutations.toFinset} :=
    ⟨⟨mats, by rw [List.mem_toFinset, List.mem_permutations]⟩⟩
  have F := moves (free := free) (s0 := s0) H
  have hst := F.oneSweep_stoch (os := h.allOrders free mats)
  have hinv := F.oneSweep_invariant (os := h.allOrders free mats)
  have hpos : ∀ x : h.Given free s0, ENNReal.ofReal (h.joint x.1) ≠ 0 := fun x => (ENNReal.ofReal_pos.2 (joint_pos H x.1)).ne'
  refine link_path (P := h.sweepGiven free s0 mats) (w := fun x => ENNReal.ofReal (h.joint x.1)) hst hinv hpos
    (fun x => ENNReal.ofReal_ne_top) (link := h.linkGiven free s0 mats) (fun x y hxy => ?_) (linking_given hnd hfree hl a b)
  rcases hxy with hxy | hxy
  · exact Or.inl (F.link_two (os := h.allOrders free mats)
      (fun i j => orderOf_perm free ((order_perm i).trans (order_perm j).symm)) hxy)
  · right
    have h1 : y = ⟨opposite free x.1, opposite_agree x.2⟩ := Subtype.ext hxy
    rw [h1]
    exact opposite_step (mats := mats) H hnd hfree x

open Classical in
/-- and nothing else can be reached -/
theorem path_linking (H : h.Legal) (hnd : mats.Nodup) (hfree : ∀ q : h.Site, free q → (q.1 : Nat) ∈ mats) (n : Nat)
    (a b : h.Given free s0) (hn : pw (h.sweepGiven free s0 mats) n a b ≠ 0) :
    Relation.ReflTransGen (fun a b => (∃ q, Matters free a q ∧ DifferAt a b q) ∨ b = opposite free a) a.1 b.1 := by
  classical
  have hne : Nonempty {l : List Nat // l ∈ mats.permutations.toFinset} :=
    ⟨⟨mats, by rw [List.mem_toFinset, List.mem_permutations]⟩⟩
  have F := moves (free := free) (s0 := s0) H
  have even : ∀ n b, pw (h.sweepGiven free s0 mats) (2 * n) a b ≠ 0 →
      Relation.ReflTransGen (fun a b => (∃ q, Matters free a q ∧ DifferAt a b q) ∨ b = opposite free a) a.1 b.1 := by
    intro n b hn
    have := F.even_linked (os := h.allOrders free mats)
      (fun i j => orderOf_perm free ((order_perm i).trans (order_perm j).symm)) n hn
    exact this.lift (fun x : h.Given free s0 => x.1) fun a b hab => Or.inl ((linked_iff hnd hfree a b).1 hab)
  rcases Nat.even_or_odd' n with ⟨k, rfl | rfl⟩
  · exact even k b hn
  · have h1 : pw (h.sweepGiven free s0 mats) (2 * (k + 1)) a ⟨opposite free b.1, opposite_agree b.2⟩ ≠ 0 := by
      have : 2 * (k + 1) = 2 * k + 1 + 1 := by ring
      rw [this]
      refine pw_add_ne hn ?_
      rw [pw_one]
      exact opposite_step H hnd hfree b
    refine (even (k + 1) _ h1).tail (Or.inr ?_)
    exact (opposite_opposite free b.1).symm

end

open Classical in
/-- mean square error of averages over the samples -/
theorem linking_square (H : h.Legal) (free : h.Site → Prop) (s0 : h.State) (hl : h.Linking free s0) (mats : List Nat)
    (hnd : mats.Nodup) (hfree : ∀ q : h.Site, free q → (q.1 : Nat) ∈ mats) : ∃ C : ℝ,
    ∀ (wr : Wiring) (m : Mach Sampler LbdaUpdate), h.FixedLbdas wr m → freeMats m = mats →
      ∀ (fe : Nat → Arr Int), (∀ q, free q ↔ h.Sampled m fe q) →
      ∀ (S B : Nat), 1 ≤ S → ∀ T, m.clock + B + S ≤ T → ∀ (s : h.State), h.Agree free s s0 → ∀ (g : h.State → ℝ), (∀ x, |g x| ≤ 1) →
      ∀ f : Orders (freeMats m) T → h.Draws T → ℝ, (∀ σ ω, f σ ω = (∑ k ∈ Finset.range S, g (runSteps (fun p => matStep fe p.2) ω
        (sweepsSched h (withOrders wr σ).perm (freeMats m) T m.clock (B + (k + 1))) s)) / S) →
        (∀ σ, Integrable (fun ω => (f σ ω - ∑ x, h.posteriorGiven free s0 x * g x) ^ 2) (h.allDraws T)) ∧
        h.expectation (freeMats m) T (fun σ ω => (f σ ω - ∑ x, h.posteriorGiven free s0 x * g x) ^ 2) ≤ C / S := by
  have hne : Nonempty {l : List Nat // l ∈ mats.permutations.toFinset} :=
    ⟨⟨mats, by rw [List.mem_toFinset, List.mem_permutations]⟩⟩
  have F := moves (free := free) (s0 := s0) H
  obtain ⟨P, hP⟩ : ∃ P, P = h.sweepGiven free s0 mats := ⟨_, rfl⟩
  have hst : ∀ x, ∑ y, P x y = 1 := by rw [hP]; exact F.oneSweep_stoch (os := h.allOrders free mats)
  have hinv : ∀ z, ∑ x, ENNReal.ofReal (h.joint x.1) * P x z = ENNReal.ofReal (h.joint z.1) := by
    rw [hP]; exact F.oneSweep_invariant (os := h.allOrders free mats)
  have hfin : ∀ n x y, pw P n x y ≠ ⊤ := by
    intro n x y e
    have := pw_stoch hst n x ▸ Finset.single_le_sum (f := fun y => pw P n x y) (fun _ _ => bot_le) (Finset.mem_univ y)
    simp only [e] at this
    simp at this
  have hfin1 : ∀ x y, P x y ≠ ⊤ := fun x y => pw_one P x y ▸ hfin 1 x y
  have hsums : ∀ n x, ∑ y, (pw P n x y).toReal = 1 := by
    intro n x
    rw [← ENNReal.toReal_sum fun y _ => hfin n x y, pw_stoch hst, ENNReal.toReal_one]
  have hsums1 : ∀ x, ∑ y, (P x y).toReal = 1 := fun x => by simpa only [pw_one] using hsums 1 x
  obtain ⟨W, hW⟩ : ∃ W, W = ∑ x with h.Agree free x s0, h.joint x := ⟨_, rfl⟩
  have hWs : ∑ y : h.Given free s0, h.joint y.1 = W := by
    rw [hW, Finset.sum_filter, sum_class (fun x => h.Agree free x s0) _ (fun x hx => if_neg hx)]
    exact Finset.sum_congr rfl fun y _ => (if_pos y.2).symm
  have hWpos : 0 < W := by
    rw [hW]
    exact Finset.sum_pos (fun x _ => joint_pos H x) ⟨s0, by rw [Finset.mem_filter]; exact ⟨Finset.mem_univ _, Agree.refl _ _⟩⟩
  have hpost : ∀ x : h.Given free s0, h.posteriorGiven free s0 x.1 = h.joint x.1 / W := by
    intro x
    unfold posteriorGiven
    rw [if_pos x.2, hW]
  have hinvR : ∀ z, ∑ x : h.Given free s0, h.joint x.1 / W * (P x z).toReal = h.joint z.1 / W := by
    intro z
    have h1 := congrArg ENNReal.toReal (hinv z)
    rw [ENNReal.toReal_sum fun x _ => ENNReal.mul_ne_top ENNReal.ofReal_ne_top (hfin1 x z),
      ENNReal.toReal_ofReal (joint_pos H z.1).le] at h1
    simp only [ENNReal.toReal_mul, ENNReal.toReal_ofReal (joint_pos H _).le] at h1
    rw [← h1, Finset.sum_div]
    exact Finset.sum_congr rfl fun x _ => by ring
  obtain ⟨D, hD, hpois⟩ := poisson_bounded (P := fun x y => (P x y).toReal) hsums1 (fun _ _ => ENNReal.toReal_nonneg)
    (fun x y => by
      have := linking_path H hnd hfree hl x y
      rw [← hP] at this
      refine Relation.ReflTransGen.mono (fun a b hab => ?_) _ _ this
      intro h0
      rcases (ENNReal.toReal_eq_zero_iff _).1 h0 with h1 | h1
      · exact hab h1
      · exact hfin1 a b h1)
    (π := fun x => h.joint x.1 / W) hinvR (by rw [← Finset.sum_div, hWs, div_self hWpos.ne'])
  refine ⟨16 * D, ?_⟩
  rintro wr m hm rfl fe hfe S B hS T hT s hs g hg f hf
  obtain ⟨X, hX⟩ : ∃ X : Orders (freeMats m) T → Nat → h.Draws T → h.State, X = fun σ k ω => runSteps (fun p => matStep fe p.2) ω
    (sweepsSched h (withOrders wr σ).perm (freeMats m) T m.clock (B + (k + 1))) s := ⟨_, rfl⟩
  obtain ⟨mu, hmu⟩ : ∃ mu, mu = ∑ x, h.posteriorGiven free s0 x * g x := ⟨_, rfl⟩
  have hprob : IsProbabilityMeasure (h.allDraws T) := by
    unfold allDraws
    infer_instance
  have hXm : ∀ σ k s', MeasurableSet {ω | X σ k ω = s'} := by
    intro σ k s'
    rw [hX]
    exact measurable_runSteps (step := fun p : Fin T × Fin h.M => matStep fe p.2) (fun p s s' => matStep_event fe p.2 s s') _ s s'
  have hXX : ∀ σ j k (p : h.State × h.State), MeasurableSet {ω | (X σ j ω, X σ k ω) = p} := by
    intro σ j k p
    have : {ω | (X σ j ω, X σ k ω) = p} = {ω | X σ j ω = p.1} ∩ {ω | X σ k ω = p.2} := by
      ext ω; simp [Prod.ext_iff]
    rw [this]
    exact (hXm σ j _).inter (hXm σ k _)
  have hmu1 : |mu| ≤ 1 := by
    rw [hmu, ← posteriorGiven_sum H free s0]
    refine (Finset.abs_sum_le_sum_abs _ _).trans (Finset.sum_le_sum fun x _ => ?_)
    rw [abs_mul, abs_of_nonneg (posteriorGiven_nonneg H free s0 x)]
    exact mul_le_of_le_one_right (posteriorGiven_nonneg H free s0 x) (hg x)
  rw [← hmu]
  obtain ⟨c, hc⟩ : ∃ c : h.State → ℝ, c = fun x => g x - mu := ⟨_, rfl⟩
  have hc2 : ∀ x, |c x| ≤ 2 := by
    intro x
    rw [hc]
    refine (abs_sub _ _).trans ?_
    linarith [hg x]
  have hcmean : ∑ x : h.Given free s0, h.joint x.1 / W * c x.1 = 0 := by
    have h1 : ∑ x : h.Given free s0, h.joint x.1 / W * c x.1 = ∑ x, h.posteriorGiven free s0 x * c x := by
      rw [sum_class (fun x => h.Agree free x s0) (fun x => h.posteriorGiven free s0 x * c x) (fun x hx => by
        unfold posteriorGiven
        rw [if_neg hx, zero_mul])]
      exact Finset.sum_congr rfl fun x _ => by rw [hpost]
    rw [h1, hc]
    simp only [mul_sub]
    rw [Finset.sum_sub_distrib, ← hmu, ← Finset.sum_mul, posteriorGiven_sum H free s0, one_mul, sub_self]
  obtain ⟨gg, hgg, hpg⟩ := hpois (fun x => c x.1) 2 (fun x => hc2 x.1) hcmean
  have hS' : (0 : ℝ) < S := by exact_mod_cast hS
  obtain ⟨N, hN⟩ : ∃ N : ℝ, N = (Fintype.card (Orders (freeMats m) T) : ℝ) := ⟨_, rfl⟩
  have hNpos : 0 < N := by
    rw [hN]
    exact_mod_cast Fintype.card_pos
  have hint : ∀ σ j k, Integrable (fun ω => c (X σ j ω) * c (X σ k ω)) (h.allDraws T) := fun σ j k =>
    (integral_finite (hXX σ j k) fun p => c p.1 * c p.2).1
  have hfun : ∀ σ, (fun ω => (f σ ω - mu) ^ 2) = fun ω =>
      (∑ j ∈ Finset.range S, ∑ k ∈ Finset.range S, c (X σ j ω) * c (X σ k ω)) / (S : ℝ) ^ 2 := by
    intro σ
    funext ω
    have : f σ ω - mu = (∑ k ∈ Finset.range S, c (X σ k ω)) / S := by
      rw [hf, hc, hX, Finset.sum_sub_distrib, Finset.sum_const, Finset.card_range, nsmul_eq_mul, sub_div,
        mul_div_cancel_left₀ _ hS'.ne']
    rw [this, div_pow, sq (∑ k ∈ Finset.range S, c (X σ k ω)), Finset.sum_mul_sum]
  refine ⟨fun σ => ?_, ?_⟩
  · rw [hfun]
    exact (integrable_finsetSum _ fun j _ => integrable_finsetSum _ fun k _ => hint σ j k).div_const _
  obtain ⟨e, he⟩ : ∃ e : Nat → Nat → ℝ, e = fun j k => (∑ σ, ∫ ω, c (X σ j ω) * c (X σ k ω) ∂h.allDraws T) / N := ⟨_, rfl⟩
  have hexp : h.expectation (freeMats m) T (fun σ ω => (f σ ω - mu) ^ 2) =
      (∑ j ∈ Finset.range S, ∑ k ∈ Finset.range S, e j k) / (S : ℝ) ^ 2 := by
    unfold expectation
    simp only [hfun]
    rw [he, ← hN]
    have h1 : ∀ σ, ∫ ω, (∑ j ∈ Finset.range S, ∑ k ∈ Finset.range S, c (X σ j ω) * c (X σ k ω)) / (S : ℝ) ^ 2 ∂h.allDraws T =
        (∑ j ∈ Finset.range S, ∑ k ∈ Finset.range S, ∫ ω, c (X σ j ω) * c (X σ k ω) ∂h.allDraws T) / (S : ℝ) ^ 2 := by
      intro σ
      rw [integral_div, integral_finsetSum _ fun j _ => integrable_finsetSum _ fun k _ => hint σ j k]
      congr 1
      exact Finset.sum_congr rfl fun j _ => integral_finsetSum _ fun k _ => hint σ j k
    simp only [h1]
    rw [← Finset.sum_div, div_right_comm, Finset.sum_comm]
    congr 1
    rw [Finset.sum_div]
    refine Finset.sum_congr rfl fun j _ => ?_
    rw [Finset.sum_comm, Finset.sum_div]
  have hep : ∀ j d, j + d < S → e j (j + d) = ∑ x : h.Given free s0, ∑ y : h.Given free s0,
      (pw P (B + (j + 1)) ⟨s, hs⟩ x).toReal * (pw P d x y).toReal * (c x.1 * c y.1) := by
    intro j d hjd
    have h1 : ∀ σ, ∫ ω, c (X σ j ω) * c (X σ (j + d) ω) ∂h.allDraws T =
        ∑ x, ∑ y, (h.allDraws T {ω | X σ j ω = x ∧ X σ (j + d) ω = y}).toReal * (c x * c y) := by
      intro σ
      rw [(integral_finite (hXX σ j (j + d)) fun p => c p.1 * c p.2).2, Fintype.sum_prod_type]
      refine Finset.sum_congr rfl fun x _ => Finset.sum_congr rfl fun y _ => ?_
      congr 3
      ext ω
      simp
    have h2 : ∀ x y, (∑ σ, (h.allDraws T {ω | X σ j ω = x ∧ X σ (j + d) ω = y}).toReal) / N =
        if hz : h.Agree free x s0 ∧ h.Agree free y s0 then
          (pw P (B + (j + 1)) ⟨s, hs⟩ ⟨x, hz.1⟩).toReal * (pw P d ⟨x, hz.1⟩ ⟨y, hz.2⟩).toReal else 0 := by
      intro x y
      have h3 := joint_average hm fe hfe T (B + (j + 1)) d (by omega) s x y hs
      rw [← hP] at h3
      have h4 := congrArg ENNReal.toReal h3
      rw [ENNReal.toReal_sum fun σ _ => measure_ne_top _ _, ENNReal.toReal_mul, ENNReal.toReal_natCast, ← hN] at h4
      rw [hX]
      have h5 : B + (j + d + 1) = B + (j + 1) + d := by ring
      simp only [h5]
      rw [h4, mul_div_cancel_left₀ _ hNpos.ne']
      split
      · rw [ENNReal.toReal_mul]
      · rfl
    have h6 : e j (j + d) = ∑ x, ∑ y, (∑ σ, (h.allDraws T {ω | X σ j ω = x ∧ X σ (j + d) ω = y}).toReal) / N * (c x * c y) := by
      rw [he]
      simp only [h1]
      rw [Finset.sum_comm, Finset.sum_div]
      refine Finset.sum_congr rfl fun x _ => ?_
      rw [Finset.sum_comm, Finset.sum_div]
      refine Finset.sum_congr rfl fun y _ => ?_
      rw [← Finset.sum_mul]
      ring
    rw [h6]
    simp only [h2]
    rw [sum_class (fun x => h.Agree free x s0) _ (fun x hx => Finset.sum_eq_zero fun y _ => by
      rw [dif_neg fun hz => hx hz.1, zero_mul])]
    refine Finset.sum_congr rfl fun x _ => ?_
    rw [sum_class (fun x => h.Agree free x s0) _ (fun y hy => by rw [dif_neg fun hz => hy hz.2, zero_mul])]
    refine Finset.sum_congr rfl fun y _ => ?_
    rw [dif_pos ⟨x.2, y.2⟩]
  have hbound := chain_square (R := fun n x y => (pw P n x y).toReal) (P := fun x y => (P x y).toReal)
    (fun x y => by rw [pw_zero]; split <;> simp)
    (fun n x z => by
      rw [pw_add, ENNReal.toReal_sum fun y _ => ENNReal.mul_ne_top (hfin n x y) (hfin 1 y z)]
      simp only [ENNReal.toReal_mul, pw_one])
    (fun _ _ _ => ENNReal.toReal_nonneg) hsums hpg (fun x => hc2 x.1) hgg (n := S)
    (a := fun j x => (pw P (B + (j + 1)) ⟨s, hs⟩ x).toReal)
    (fun j => ⟨fun _ => ENNReal.toReal_nonneg, hsums _ _⟩) (e := e)
    (fun j k => by
      rw [he]
      simp only
      congr 1
      refine Finset.sum_congr rfl fun σ _ => ?_
      exact integral_congr_ae (Filter.Eventually.of_forall fun ω => mul_comm _ _)) hep
    (fun j => by
      rw [he]
      exact div_nonneg (Finset.sum_nonneg fun σ _ => integral_nonneg fun ω => mul_self_nonneg _) hNpos.le)
  rw [hexp, div_le_div_iff₀ (by positivity) hS']
  calc _ ≤ 4 * 2 * (2 * D) * S * (S : ℝ) := mul_le_mul_of_nonneg_right hbound hS'.le
    _ = _ := by ring

end Spec.Hier

end LFM
