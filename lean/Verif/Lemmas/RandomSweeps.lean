import Verif.Lemmas.Ergodic

/-!
# Lemmas: sweeps in random order

Steps as in `Verif.Lemmas.Ergodic`, but some flips may leave the weight unchanged: these always happen. The order of the
steps of each sweep is drawn at random. Such sweeps converge to their stationary distribution if and only if all states
are linked by flips that change the weight at the time when they can happen in a sweep that flips everything else.
-/

namespace LFM

open Spec

section
variable {S : Type} [Fintype S] [DecidableEq S]

/-- `n` steps of the same kind -/
noncomputable def pw (P : S → S → ENNReal) (n : Nat) : S → S → ENNReal := schedule (fun _ : Unit => P) (List.replicate n ())

theorem pw_zero (P : S → S → ENNReal) (x y : S) : pw P 0 x y = if x = y then 1 else 0 := by
  simp [pw, schedule]

omit [DecidableEq S] in
theorem pw_one (P : S → S → ENNReal) (x y : S) : pw P 1 x y = P x y := by
  classical
  simp [pw, schedule]

omit [DecidableEq S] in
theorem pw_add (P : S → S → ENNReal) (a b : Nat) (x z : S) : pw P (a + b) x z = ∑ y, pw P a x y * pw P b y z := by
  rw [pw, List.replicate_add, schedule_append]
  rfl

omit [DecidableEq S] in
theorem pw_add_ne {P : S → S → ENNReal} {a b : Nat} {x y z : S} (h1 : pw P a x y ≠ 0) (h2 : pw P b y z ≠ 0) :
    pw P (a + b) x z ≠ 0 := by
  rw [pw_add]
  intro h0
  rw [Finset.sum_eq_zero_iff] at h0
  exact mul_ne_zero h1 h2 (h0 y (Finset.mem_univ _))

omit [DecidableEq S] in
theorem pw_stoch {P : S → S → ENNReal} (h : ∀ x, ∑ y, P x y = 1) (n : Nat) (x : S) : ∑ y, pw P n x y = 1 :=
  schedule_stoch (fun _ => h) _ x

omit [DecidableEq S] in
theorem pw_invariant {P : S → S → ENNReal} {w : S → ENNReal} (h : ∀ z, ∑ x, w x * P x z = w z) (n : Nat) (z : S) :
    ∑ x, w x * pw P n x z = w z :=
  schedule_invariant (fun _ => h) _ z

omit [DecidableEq S] in
/-- nothing comes into a set that is never left -/
theorem closed_compl {P : S → S → ENNReal} {w : S → ENNReal} (hst : ∀ x, ∑ y, P x y = 1) (h : ∀ z, ∑ x, w x * P x z = w z)
    (hw : ∀ x, w x ≠ 0) (hw' : ∀ x, w x ≠ ⊤) (C : Finset S) (hC : ∀ x ∈ C, ∀ y, P x y ≠ 0 → y ∈ C) (x y : S) (hy : y ∈ C)
    (hxy : P x y ≠ 0) : x ∈ C := by
  classical
  by_contra hx
  have h1 : ∑ z ∈ C, w z = ∑ x ∈ C, ∑ z ∈ C, w x * P x z + ∑ x ∈ Finset.univ \ C, ∑ z ∈ C, w x * P x z := by
    rw [add_comm, Finset.sum_sdiff (Finset.subset_univ C), Finset.sum_comm]
    exact Finset.sum_congr rfl fun z _ => (h z).symm
  have h2 : ∑ x ∈ C, ∑ z ∈ C, w x * P x z = ∑ z ∈ C, w z := by
    refine Finset.sum_congr rfl fun x hx => ?_
    rw [← Finset.mul_sum]
    have : ∑ z ∈ C, P x z = 1 := by
      rw [← hst x]
      refine Finset.sum_subset (Finset.subset_univ C) fun z _ hz => ?_
      by_contra h0
      exact hz (hC x hx z h0)
    rw [this, mul_one]
  have htop : ∑ z ∈ C, w z ≠ ⊤ := by
    rw [ENNReal.sum_ne_top]
    exact fun z _ => hw' z
  rw [h2] at h1
  have h3 : ∑ x ∈ Finset.univ \ C, ∑ z ∈ C, w x * P x z = 0 := by
    have : ∑ z ∈ C, w z + 0 = ∑ z ∈ C, w z + ∑ x ∈ Finset.univ \ C, ∑ z ∈ C, w x * P x z := by rw [add_zero]; exact h1
    exact ((ENNReal.add_right_inj htop).1 this).symm
  rw [Finset.sum_eq_zero_iff] at h3
  have h4 := h3 x (by simp [hx])
  rw [Finset.sum_eq_zero_iff] at h4
  exact mul_ne_zero (hw x) hxy (h4 y hy)

/-- all states are reached, if they are linked by pairs of steps in either direction -/
theorem reach_all {P : S → S → ENNReal} {w : S → ENNReal} (hst : ∀ x, ∑ y, P x y = 1) (h : ∀ z, ∑ x, w x * P x z = w z)
    (hw : ∀ x, w x ≠ 0) (hw' : ∀ x, w x ≠ ⊤) (hloop : ∀ x, pw P 2 x x ≠ 0) (link : S → S → Prop)
    (hlink : ∀ x y, link x y → pw P 2 x y ≠ 0 ∨ pw P 2 y x ≠ 0) (hconn : ∀ x y, Relation.ReflTransGen link x y) :
    ∃ N, 1 ≤ N ∧ ∀ x y, pw P N x y ≠ 0 := by
  classical
  have hmono : ∀ (k n : Nat) x y, pw P (2 * n) x y ≠ 0 → pw P (2 * (n + k)) x y ≠ 0 := by
    intro k
    induction k with
    | zero => intro n x y h; exact h
    | succ k ih =>
      intro n x y h
      rw [show 2 * (n + (k + 1)) = 2 * (n + k) + 2 by ring]
      exact pw_add_ne (ih n x y h) (hloop y)
  have hreach : ∀ x y, ∃ n, pw P (2 * n) x y ≠ 0 := by
    intro x y
    obtain ⟨C, hC⟩ : ∃ C : Finset S, C = Finset.univ.filter fun y => ∃ n, pw P (2 * n) x y ≠ 0 := ⟨_, rfl⟩
    have hmem : ∀ y, y ∈ C ↔ ∃ n, pw P (2 * n) x y ≠ 0 := by intro y; rw [hC]; simp
    have hcl : ∀ y ∈ C, ∀ z, pw P 2 y z ≠ 0 → z ∈ C := by
      intro y hy z hz
      obtain ⟨n, hn⟩ := (hmem y).1 hy
      rw [hmem]
      exact ⟨n + 1, by rw [show 2 * (n + 1) = 2 * n + 2 by ring]; exact pw_add_ne hn hz⟩
    have hback := closed_compl (P := pw P 2) (w := w) (fun x => pw_stoch hst 2 x) (fun z => pw_invariant h 2 z) hw hw' C hcl
    have hx : x ∈ C := by
      rw [hmem]
      exact ⟨0, by rw [mul_zero, pw_zero, if_pos rfl]; exact one_ne_zero⟩
    rw [← hmem]
    have := hconn x y
    induction this with
    | refl => exact hx
    | tail _ hl ih =>
      rcases hlink _ _ hl with h1 | h1
      · exact hcl _ ih _ h1
      · exact hback _ _ ih h1
  choose n hn using hreach
  obtain ⟨B, hB⟩ : ∃ B, B = ∑ x, ∑ y, n x y := ⟨_, rfl⟩
  refine ⟨2 * (B + 1), by omega, fun x y => ?_⟩
  have hle : n x y ≤ B := by
    rw [hB]
    exact (Finset.single_le_sum (f := fun y => n x y) (fun _ _ => Nat.zero_le _) (Finset.mem_univ y)).trans
      (Finset.single_le_sum (f := fun x => ∑ y, n x y) (fun _ _ => Nat.zero_le _) (Finset.mem_univ x))
  have := hmono (B + 1 - n x y) (n x y) x y (hn x y)
  rwa [show n x y + (B + 1 - n x y) = B + 1 by omega] at this

/-- convergence of steps of the same kind -/
theorem pw_converges [Nonempty S] {P : S → S → ENNReal} {W : S → ℝ} (hst : ∀ x, ∑ y, P x y = 1) (hpos : ∀ x, 0 < W x)
    (hinv : ∀ z, ∑ x, ENNReal.ofReal (W x) * P x z = ENNReal.ofReal (W z)) (N : Nat) (hN : ∀ x y, pw P N x y ≠ 0) :
    ∃ ε : ℝ, 0 < ε ∧ ε ≤ 1 ∧ ∀ n x z, |(pw P n x z).toReal - W z / ∑ y, W y| ≤ (1 - ε) ^ (n / N) := by
  classical
  have hle : ∀ n x y, pw P n x y ≤ 1 := by
    intro n x y
    rw [← pw_stoch hst n x]
    exact Finset.single_le_sum (f := fun y => pw P n x y) (fun _ _ => bot_le) (Finset.mem_univ y)
  obtain ⟨V, hV⟩ : ∃ V : Finset ℝ, V = Finset.univ.image fun p : S × S => (pw P N p.1 p.2).toReal := ⟨_, rfl⟩
  have hne : V.Nonempty := by
    rw [hV]
    exact Finset.univ_nonempty.image _
  have hmin : ∀ x y, V.min' hne ≤ (pw P N x y).toReal := by
    intro x y
    refine Finset.min'_le _ _ ?_
    rw [hV]
    exact Finset.mem_image.2 ⟨(x, y), Finset.mem_univ _, rfl⟩
  have h0 : 0 < V.min' hne := by
    rw [Finset.lt_min'_iff]
    intro v hv
    rw [hV] at hv
    obtain ⟨p, -, rfl⟩ := Finset.mem_image.1 hv
    exact ENNReal.toReal_pos (hN _ _) (ne_top_of_le_ne_top ENNReal.one_ne_top (hle _ _ _))
  have h1 : V.min' hne ≤ 1 := by
    obtain ⟨x⟩ := ‹Nonempty S›
    refine (hmin x x).trans ?_
    exact ENNReal.toReal_mono ENNReal.one_ne_top (hle _ _ _)
  refine ⟨V.min' hne, h0, h1, fun n x z => ?_⟩
  have hflat : ∀ Ls : List (List Unit), (∀ l ∈ Ls, l = [()]) → Ls.flatten = List.replicate Ls.length () := by
    intro Ls
    induction Ls with
    | nil => intro _; rfl
    | cons l Ls ih =>
      intro h
      rw [List.flatten_cons, h l (by simp), ih fun l' h' => h l' (by simp [h']), List.length_cons, List.replicate_succ]
      rfl
  obtain ⟨a, b, hab, hq⟩ := contract (K := fun _ : Unit => P) (fun _ => hst) (fun l => l = [()]) N h0 h1
    (fun Ls hg hl x y => by rw [hflat Ls hg, hl]; exact hmin x y) z (n / N) (List.replicate n [()])
    (fun l hl => (List.mem_replicate.1 hl).2) (by rw [List.length_replicate]; exact Nat.div_mul_le_self _ _)
  rw [hflat _ (fun l hl => (List.mem_replicate.1 hl).2), List.length_replicate] at hq
  exact contract_limit (K := fun _ : Unit => P) (fun _ => hst) hpos _ (fun z => pw_invariant hinv n z) x z hab hq

end

section
variable {E S ι : Type} [Fintype S] [DecidableEq S] [Fintype ι]

/-- what is assumed of the steps -/
structure Moves (K : E → S → S → ENNReal) (flip : E → S → S) (W : S → ℝ) : Prop where
  stoch : ∀ e x, ∑ y, K e x y = 1
  invariant : ∀ e z, ∑ x, ENNReal.ofReal (W x) * K e x z = ENNReal.ofReal (W z)
  inv : ∀ e x, flip e (flip e x) = x
  comm : ∀ e e' x, flip e (flip e' x) = flip e' (flip e x)
  pos : ∀ x, 0 < W x
  flip_pos : ∀ e x, K e x (flip e x) ≠ 0
  stay : ∀ e x, K e x x ≠ 0 ↔ W (flip e x) < W x
  off : ∀ e x y, y ≠ x → y ≠ flip e x → K e x y = 0

/-- all flips of a list -/
def flipAll (flip : E → S → S) (l : List E) (x : S) : S := l.foldl (fun x e => flip e x) x

/-- one sweep in a random order -/
noncomputable def oneSweep (K : E → S → S → ENNReal) (os : ι → List E) (x y : S) : ENNReal :=
  (∑ i, schedule K (os i) x y) / Fintype.card ι

/-- the flip of some step changes the weight, after all flips before it in a first or a second sweep -/
def linked (flip : E → S → S) (W : S → ℝ) (os : ι → List E) (y y' : S) : Prop :=
  ∃ i l1 e l2, os i = l1 ++ e :: l2 ∧ y' = flip e y ∧ ∃ m, (m = [] ∨ m = os i) ∧
    W (flip e (flipAll flip l1 (flipAll flip m y))) ≠ W (flipAll flip l1 (flipAll flip m y))

namespace Moves

variable {K : E → S → S → ENNReal} {flip : E → S → S} {W : S → ℝ}

omit [Fintype S] [DecidableEq S] in
theorem flips_append (l1 l2 : List E) (x : S) : flipAll flip (l1 ++ l2) x = flipAll flip l2 (flipAll flip l1 x) := by
  rw [flipAll, List.foldl_append]
  rfl

section
variable (F : Moves K flip W)
include F

omit [DecidableEq S] in
theorem flips_flip (l : List E) (e : E) (x : S) : flipAll flip l (flip e x) = flip e (flipAll flip l x) := by
  induction l generalizing x with
  | nil => rfl
  | cons a l ih =>
    show flipAll flip l (flip a (flip e x)) = _
    rw [F.comm, ih]
    rfl

omit [DecidableEq S] in
theorem flips_comm (l l' : List E) (x : S) : flipAll flip l (flipAll flip l' x) = flipAll flip l' (flipAll flip l x) := by
  induction l' generalizing x with
  | nil => rfl
  | cons a l' ih =>
    show flipAll flip l (flipAll flip l' (flip a x)) = flipAll flip l' (flip a (flipAll flip l x))
    rw [ih, F.flips_flip]

omit [DecidableEq S] in
theorem flips_twice (l : List E) (x : S) : flipAll flip l (flipAll flip l x) = x := by
  induction l generalizing x with
  | nil => rfl
  | cons a l ih =>
    show flipAll flip l (flip a (flipAll flip l (flip a x))) = x
    rw [F.flips_flip, ih, F.inv]

omit [DecidableEq S] in
theorem flips_perm {l l' : List E} (h : l.Perm l') (x : S) : flipAll flip l x = flipAll flip l' x := by
  induction h generalizing x with
  | nil => rfl
  | cons a _ ih => exact ih _
  | swap a b l =>
    show flipAll flip l (flip a (flip b x)) = flipAll flip l (flip b (flip a x))
    rw [F.comm]
  | trans _ _ h1 h2 => rw [h1, h2]

omit [DecidableEq S] in
/-- a sweep may flip everything -/
theorem all_flip (l : List E) (x : S) : schedule K l x (flipAll flip l x) ≠ 0 := by
  classical
  induction l generalizing x with
  | nil => simp [schedule, flipAll]
  | cons a l ih =>
    rw [schedule]
    intro h0
    rw [Finset.sum_eq_zero_iff] at h0
    exact mul_ne_zero (F.flip_pos a x) (ih (flip a x)) (h0 (flip a x) (Finset.mem_univ _))

omit [DecidableEq S] in
/-- or everything but one entry -/
theorem all_but_one (l1 l2 : List E) (e : E) (x : S) (h : W (flip e (flipAll flip l1 x)) < W (flipAll flip l1 x)) :
    schedule K (l1 ++ e :: l2) x (flipAll flip (l1 ++ e :: l2) (flip e x)) ≠ 0 := by
  classical
  rw [schedule_append]
  intro h0
  rw [Finset.sum_eq_zero_iff] at h0
  refine mul_ne_zero (F.all_flip l1 x) ?_ (h0 (flipAll flip l1 x) (Finset.mem_univ _))
  rw [schedule]
  intro h0
  rw [Finset.sum_eq_zero_iff] at h0
  refine mul_ne_zero ((F.stay e _).2 h) ?_ (h0 (flipAll flip l1 x) (Finset.mem_univ _))
  have : flipAll flip (l1 ++ e :: l2) (flip e x) = flipAll flip l2 (flipAll flip l1 x) := by
    rw [flips_append]
    show flipAll flip l2 (flip e (flipAll flip l1 (flip e x))) = _
    rw [F.flips_flip l1, F.inv]
  rw [this]
  exact F.all_flip l2 _

end

section
variable (F : Moves K flip W) [Nonempty ι] {os : ι → List E} (hos : ∀ i j, (os i).Perm (os j))
include F

omit F [DecidableEq S] [Nonempty ι] in
theorem oneSweep_ne (i : ι) {x y : S} (h : schedule K (os i) x y ≠ 0) : oneSweep K os x y ≠ 0 := by
  rw [oneSweep]
  refine ENNReal.div_ne_zero.2 ⟨fun h0 => ?_, ENNReal.natCast_ne_top _⟩
  rw [Finset.sum_eq_zero_iff] at h0
  exact h (h0 i (Finset.mem_univ _))

omit F [DecidableEq S] [Nonempty ι] in
theorem of_oneSweep_ne {x y : S} (h : oneSweep K os x y ≠ 0) : ∃ i, schedule K (os i) x y ≠ 0 := by
  by_contra hc
  push Not at hc
  apply h
  rw [oneSweep, Finset.sum_eq_zero fun i _ => hc i, ENNReal.zero_div]

omit [DecidableEq S] in
theorem oneSweep_stoch (x : S) : ∑ y, oneSweep K os x y = 1 := by
  unfold oneSweep
  simp only [div_eq_mul_inv]
  rw [← Finset.sum_mul, Finset.sum_comm]
  simp only [schedule_stoch F.stoch]
  rw [Finset.sum_const, Finset.card_univ, nsmul_eq_mul, mul_one]
  exact ENNReal.mul_inv_cancel (by exact_mod_cast Fintype.card_ne_zero) (ENNReal.natCast_ne_top _)

omit [DecidableEq S] in
theorem oneSweep_invariant (z : S) : ∑ x, ENNReal.ofReal (W x) * oneSweep K os x z = ENNReal.ofReal (W z) := by
  unfold oneSweep
  simp only [div_eq_mul_inv, ← mul_assoc, Finset.mul_sum]
  rw [← Finset.sum_mul, Finset.sum_comm]
  have : ∀ i, ∑ x, ENNReal.ofReal (W x) * schedule K (os i) x z = ENNReal.ofReal (W z) := fun i =>
    schedule_invariant F.invariant _ z
  simp only [this]
  rw [Finset.sum_const, Finset.card_univ, nsmul_eq_mul, mul_comm, ← mul_assoc,
    ENNReal.inv_mul_cancel (by exact_mod_cast Fintype.card_ne_zero) (ENNReal.natCast_ne_top _), one_mul]

include hos

/-- two sweeps follow a link in one of its directions -/
theorem link_two {y y' : S} (h : linked flip W os y y') :
    pw (oneSweep K os) 2 y y' ≠ 0 ∨ pw (oneSweep K os) 2 y' y ≠ 0 := by
  obtain ⟨i, l1, e, l2, hi, rfl, m, hm, hne⟩ := h
  have key : ∀ y, W (flip e (flipAll flip l1 (flipAll flip m y))) < W (flipAll flip l1 (flipAll flip m y)) →
      pw (oneSweep K os) 2 y (flip e y) ≠ 0 := by
    intro y hlt
    rcases hm with rfl | rfl
    · have h1 := F.all_but_one l1 l2 e y hlt
      rw [← hi] at h1
      have h2 := F.all_flip (os i) (flipAll flip (os i) (flip e y))
      rw [F.flips_twice] at h2
      rw [show 2 = 1 + 1 from rfl]
      exact pw_add_ne (by rw [pw_one]; exact oneSweep_ne i h1) (by rw [pw_one]; exact oneSweep_ne i h2)
    · have h1 := F.all_flip (os i) y
      have h2 := F.all_but_one l1 l2 e (flipAll flip (os i) y) hlt
      rw [← hi, ← F.flips_flip, F.flips_twice] at h2
      rw [show 2 = 1 + 1 from rfl]
      exact pw_add_ne (by rw [pw_one]; exact oneSweep_ne i h1) (by rw [pw_one]; exact oneSweep_ne i h2)
  rcases lt_or_gt_of_ne hne with hlt | hgt
  · exact Or.inl (key y hlt)
  · right
    have := key (flip e y) (by
      rw [F.flips_flip, F.flips_flip, F.inv]
      exact hgt)
    rwa [F.inv] at this

/-- if all states are linked, the sweeps converge -/
theorem converges [Nonempty S] (hconn : ∀ x y, Relation.ReflTransGen (linked flip W os) x y) :
    ∃ N, 1 ≤ N ∧ ∃ ε : ℝ, 0 < ε ∧ ε ≤ 1 ∧ ∀ n x z, |(pw (oneSweep K os) n x z).toReal - W z / ∑ y, W y| ≤ (1 - ε) ^ (n / N) := by
  obtain ⟨i⟩ := ‹Nonempty ι›
  haveI : Nonempty ι := ⟨i⟩
  obtain ⟨N, h1, hN⟩ := reach_all (P := oneSweep K os) (w := fun x => ENNReal.ofReal (W x)) F.oneSweep_stoch
    F.oneSweep_invariant (fun x => (ENNReal.ofReal_pos.2 (F.pos x)).ne') (fun x => ENNReal.ofReal_ne_top) (fun x => by
      have h1 := F.all_flip (os i) x
      have h2 := F.all_flip (os i) (flipAll flip (os i) x)
      rw [F.flips_twice] at h2
      rw [show 2 = 1 + 1 from rfl]
      exact pw_add_ne (by rw [pw_one]; exact oneSweep_ne i h1) (by rw [pw_one]; exact oneSweep_ne i h2))
    (linked flip W os) (fun x y h => F.link_two hos h) hconn
  exact ⟨N, h1, pw_converges F.oneSweep_stoch F.pos F.oneSweep_invariant N hN⟩

/-- one sweep within a set that is closed under links -/
theorem sweep_within (C : S → Prop) (hC : ∀ y y', C y → linked flip W os y y' → C y') (i : ι) (m : List E)
    (hm : m = [] ∨ m = os i) : ∀ (l2 l1 : List E), os i = l1 ++ l2 → ∀ y z, C y →
      schedule K l2 (flipAll flip l1 (flipAll flip m y)) z ≠ 0 → ∃ y', C y' ∧ z = flipAll flip (os i) (flipAll flip m y') := by
  classical
  intro l2
  induction l2 with
  | nil =>
    intro l1 h y z hy hz
    rw [List.append_nil] at h
    rw [schedule] at hz
    refine ⟨y, hy, ?_⟩
    rw [h]
    by_contra hc
    exact hz (if_neg fun e => hc e.symm)
  | cons e l2 ih =>
    intro l1 h y z hy hz
    have h' : os i = (l1 ++ [e]) ++ l2 := by rw [h]; simp
    rw [schedule] at hz
    have : ∃ x, K e (flipAll flip l1 (flipAll flip m y)) x * schedule K l2 x z ≠ 0 := by
      by_contra hc
      push Not at hc
      exact hz (Finset.sum_eq_zero fun x _ => hc x)
    obtain ⟨x, hx⟩ := this
    have hK := left_ne_zero_of_mul hx
    have hs := right_ne_zero_of_mul hx
    by_cases hx1 : x = flip e (flipAll flip l1 (flipAll flip m y))
    · refine ih (l1 ++ [e]) h' y z hy ?_
      rw [flips_append]
      show schedule K l2 (flip e (flipAll flip l1 (flipAll flip m y))) z ≠ 0
      rwa [← hx1]
    · have hx2 : x = flipAll flip l1 (flipAll flip m y) := by
        by_contra hc
        exact hK (F.off e _ x hc hx1)
      rw [hx2] at hK hs
      have hlt := (F.stay e _).1 hK
      have hl : linked flip W os y (flip e y) := ⟨i, l1, e, l2, h, rfl, m, hm, hlt.ne⟩
      refine ih (l1 ++ [e]) h' (flip e y) z (hC _ _ hy hl) ?_
      rw [flips_append]
      show schedule K l2 (flip e (flipAll flip l1 (flipAll flip m (flip e y)))) z ≠ 0
      rwa [F.flips_flip, F.flips_flip, F.inv]

/-- states that are reached in an even number of sweeps are linked -/
theorem even_linked (n : Nat) {x y : S} (h : pw (oneSweep K os) (2 * n) x y ≠ 0) :
    Relation.ReflTransGen (linked flip W os) x y := by
  classical
  induction n generalizing y with
  | zero =>
    rw [mul_zero, pw_zero] at h
    have : x = y := by
      by_contra hc
      exact h (if_neg hc)
    rw [this]
  | succ n ih =>
    rw [show 2 * (n + 1) = 2 * n + 1 + 1 by ring, pw_add] at h
    obtain ⟨z, hz⟩ : ∃ z, pw (oneSweep K os) (2 * n + 1) x z * pw (oneSweep K os) 1 z y ≠ 0 := by
      by_contra hc
      push Not at hc
      exact h (Finset.sum_eq_zero fun x _ => hc x)
    have h1 := left_ne_zero_of_mul hz
    have h2 := right_ne_zero_of_mul hz
    rw [pw_add] at h1
    obtain ⟨w, hw⟩ : ∃ w, pw (oneSweep K os) (2 * n) x w * pw (oneSweep K os) 1 w z ≠ 0 := by
      by_contra hc
      push Not at hc
      exact h1 (Finset.sum_eq_zero fun x _ => hc x)
    have h3 := left_ne_zero_of_mul hw
    have h4 := right_ne_zero_of_mul hw
    rw [pw_one] at h2 h4
    have hxw := ih h3
    obtain ⟨i, hi⟩ := of_oneSweep_ne h4
    obtain ⟨j, hj⟩ := of_oneSweep_ne h2
    have hC : ∀ y y', Relation.ReflTransGen (linked flip W os) x y → linked flip W os y y' →
        Relation.ReflTransGen (linked flip W os) x y' := fun y y' h1 h2 => h1.tail h2
    obtain ⟨w', hw', rfl⟩ := F.sweep_within hos (Relation.ReflTransGen (linked flip W os) x) hC i [] (Or.inl rfl) (os i) [] rfl
      w z hxw hi
    have hj' : schedule K (os j) (flipAll flip [] (flipAll flip (os j) w')) y ≠ 0 := by
      have : flipAll flip (os i) (flipAll flip [] w') = flipAll flip [] (flipAll flip (os j) w') := F.flips_perm (hos i j) w'
      rwa [this] at hj
    obtain ⟨y', hy', rfl⟩ := F.sweep_within hos (Relation.ReflTransGen (linked flip W os) x) hC j (os j) (Or.inr rfl) (os j) [] rfl
      w' y hw' hj'
    rwa [F.flips_twice]

end

end Moves

end

end LFM
