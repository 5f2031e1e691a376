import Verif.Model.Dbtf
import Verif.Props.Disjoint
import Verif.Props.Splits

/-!
# C135: dbtf_reconstruct
-/

namespace LFM

open Spec

namespace Spec

/-- the lines of a file name entries of a `dim × L` matrix -/
def Lists (dim L : Nat) (lines : List (Int × Int)) : Prop := ∀ p ∈ lines, 0 ≤ p.1 ∧ p.1 < dim ∧ 0 ≤ p.2 ∧ p.2 < L

/-- the 0/1 matrix whose ones are the entries that the lines name -/
def DenseOf (dim L : Nat) (lines : List (Int × Int)) (A : Arr Int) : Prop :=
  A.shape = [dim, L] ∧ ∀ n < dim, ∀ l < L, A [n, l] = if ((n : Int), (l : Int)) ∈ lines then 1 else 0

end Spec

theorem setAll_spec {dim L : Nat} : ∀ (lines : List (Int × Int)) (a : Arr Int), Lists dim L lines →
    ∃ A, setAll dim L lines a = .ok A ∧ A.shape = a.shape ∧
      ∀ n < dim, ∀ l < L, A [n, l] = if ((n : Int), (l : Int)) ∈ lines then 1 else a [n, l] := by
  intro lines
  induction lines with
  | nil => exact fun a _ => ⟨a, rfl, rfl, fun n _ l _ => by simp⟩
  | cons p rest ih =>
    intro a h
    obtain ⟨h1, h2, h3, h4⟩ := h p List.mem_cons_self
    obtain ⟨A, hA, sA, vA⟩ := ih (a.set [p.1.toNat, p.2.toNat] 1) fun q hq => h q (List.mem_cons_of_mem _ hq)
    refine ⟨A, ?_, sA, fun n hn l hl => ?_⟩
    · obtain ⟨i, j⟩ := p
      simp only [setAll, pyIndex, if_pos (And.intro h1 h2), if_pos (And.intro h3 h4), bind, Except.bind]
      exact hA
    · rw [vA n hn l hl]
      by_cases hm : ((n : Int), (l : Int)) ∈ rest
      · rw [if_pos hm, if_pos (List.mem_cons_of_mem _ hm)]
      · rw [if_neg hm]
        by_cases he : ((n : Int), (l : Int)) = p
        · rw [if_pos (by rw [he]; exact List.mem_cons_self)]
          subst he
          simp [Arr.set]
        · rw [if_neg (by simp [List.mem_cons, he, hm])]
          have : ¬ [n, l] = [p.1.toNat, p.2.toNat] := by
            intro e
            simp only [List.cons.injEq, and_true] at e
            exact he (Prod.ext (by simp; omega) (by simp; omega))
          simp [Arr.set, this]

theorem dbtfFactor_spec {dim L : Nat} {lines : List (Int × Int)} (h : Lists dim L lines) (h1 : lines.length ≠ 1) :
    ∃ A, dbtfFactor dim L (loadtxt lines) = .ok A ∧ DenseOf dim L lines A := by
  match lines, h, h1 with
  | [], _, _ => exact ⟨_, rfl, rfl, fun n _ l _ => by simp [Arr.full]⟩
  | [_], _, h1 => simp at h1
  | p :: q :: rest, h, _ =>
    obtain ⟨A, hA, sA, vA⟩ := setAll_spec (p :: q :: rest) (Arr.full [dim, L] 0) h
    exact ⟨A, hA, sA, vA⟩

/-- **C135.** If no factor has exactly one entry, `dbtf_reconstruct` returns the matrices whose ones are the entries listed in the
files, and their Boolean tensor product. -/
theorem C135_result_partial (X : Arr Int) (N D M L : Nat) (hX : X.shape = [N, D, M]) (f1 f2 f3 : List (Int × Int))
    (h1 : Lists N L f1) (h2 : Lists D L f2) (h3 : Lists M L f3) (n1 : f1.length ≠ 1) (n2 : f2.length ≠ 1) (n3 : f3.length ≠ 1) :
    ∃ Z U V R, dbtf_reconstruct X L true f1 f2 f3 = .ok (some R, Z, U, V) ∧ dbtf_reconstruct X L false f1 f2 f3 = .ok (none, Z, U, V) ∧
      DenseOf N L f1 Z ∧ DenseOf D L f2 U ∧ DenseOf M L f3 V ∧ R.shape = [N, D, M] ∧
      ∀ n < N, ∀ d < D, ∀ k < M, (R [n, d, k] = true ↔ ∃ l : Nat, l < L ∧ ((n : Int), (l : Int)) ∈ f1 ∧ ((d : Int), (l : Int)) ∈ f2 ∧
        ((k : Int), (l : Int)) ∈ f3) := by
  obtain ⟨Z, hZ, sZ⟩ := dbtfFactor_spec h1 n1
  obtain ⟨U, hU, sU⟩ := dbtfFactor_spec h2 n2
  obtain ⟨V, hV, sV⟩ := dbtfFactor_spec h3 n3
  have dZ : Z.dim 1 = L ∧ Z.dim 0 = N := by simp [Arr.dim, sZ.1]
  have dU : U.dim 1 = L ∧ U.dim 0 = D := by simp [Arr.dim, sU.1]
  have dV : V.dim 1 = L ∧ V.dim 0 = M := by simp [Arr.dim, sV.1]
  obtain ⟨R, hR, sR, vR⟩ := C65_tensor_product Z U V (by rw [dU.1, dZ.1]) (by rw [dV.1, dZ.1])
  rw [dZ.2, dU.2, dV.2] at sR vR
  rw [dZ.1] at vR
  refine ⟨Z, U, V, R, ?_, ?_, sZ, sU, sV, sR, fun n hn d hd k hk => ?_⟩
  · simp only [dbtf_reconstruct, hX, hZ, hU, hV, hR, bind, Except.bind, pure, Except.pure, if_true]
  · simp only [dbtf_reconstruct, hX, hZ, hU, hV, bind, Except.bind, pure, Except.pure, Bool.false_eq_true, if_false]
  · rw [vR n d k hn hd hk]
    have one : ∀ (P : Prop) [Decidable P], ((if P then (1 : Int) else 0) = 1) ↔ P := fun P _ => by by_cases h : P <;> simp [h]
    constructor
    · rintro ⟨l, hl⟩
      have z := hl 0
      have u := hl 1
      have v := hl 2
      simp only [Matrix.cons_val_zero, Matrix.cons_val_one, Matrix.cons_val] at z u v
      rw [sZ.2 n hn l l.2, one] at z
      rw [sU.2 d hd l l.2, one] at u
      rw [sV.2 k hk l l.2, one] at v
      exact ⟨l, l.2, z, u, v⟩
    · rintro ⟨l, hl, z, u, v⟩
      refine ⟨⟨l, hl⟩, fun j => ?_⟩
      match j with
      | 0 => exact (sZ.2 n hn l hl).trans (if_pos z)
      | 1 => exact (sU.2 d hd l hl).trans (if_pos u)
      | 2 => exact (sV.2 k hk l hl).trans (if_pos v)

/-- **C135 is false of factors with a single entry.** If the first file has exactly one line, whatever it is, the function ends
with a TypeError; so it does if the second (third) has one line and the files before list entries of their factors. -/
theorem C135_wrong (X : Arr Int) (N D M L : Nat) (hX : X.shape = [N, D, M]) (c : Bool) (p : Int × Int) (f1 f2 f3 : List (Int × Int)) :
    dbtf_reconstruct X L c [p] f2 f3 = .error .typingError ∧
    (Lists N L f1 → dbtf_reconstruct X L c f1 [p] f3 = .error .typingError) ∧
    (Lists N L f1 → Lists D L f2 → dbtf_reconstruct X L c f1 f2 [p] = .error .typingError) := by
  have one : ∀ dim, dbtfFactor dim L (loadtxt [p]) = .error .typingError := fun _ => rfl
  have any : ∀ {dim : Nat} {f : List (Int × Int)}, Lists dim L f → (∃ A, dbtfFactor dim L (loadtxt f) = .ok A) ∨
      dbtfFactor dim L (loadtxt f) = .error .typingError := by
    intro dim f h
    match f, h with
    | [_], _ => exact Or.inr rfl
    | [], h => exact Or.inl ((dbtfFactor_spec h (by simp)).imp fun _ h => h.1)
    | _ :: _ :: _, h => exact Or.inl ((dbtfFactor_spec h (by simp)).imp fun _ h => h.1)
  refine ⟨?_, fun h1 => ?_, fun h1 h2 => ?_⟩
  · simp only [dbtf_reconstruct, hX, one, bind, Except.bind]
  · rcases any h1 with ⟨A, e⟩ | e
    · simp only [dbtf_reconstruct, hX, e, one, bind, Except.bind]
    · simp only [dbtf_reconstruct, hX, e, bind, Except.bind]
  · rcases any h1 with ⟨A, e⟩ | e
    · rcases any h2 with ⟨B, e'⟩ | e'
      · simp only [dbtf_reconstruct, hX, e, e', one, bind, Except.bind]
      · simp only [dbtf_reconstruct, hX, e, e', bind, Except.bind]
    · simp only [dbtf_reconstruct, hX, e, bind, Except.bind]

theorem setAll_rejects {dim L : Nat} : ∀ (lines : List (Int × Int)) (a : Arr Int),
    (∃ p ∈ lines, ¬ (-(dim : Int) ≤ p.1 ∧ p.1 < dim ∧ -(L : Int) ≤ p.2 ∧ p.2 < L)) → setAll dim L lines a = .error .indexError := by
  have idx : ∀ (n : Nat) (i : Int), (∃ k, pyIndex n i = .ok k) ∧ -(n : Int) ≤ i ∧ i < n ∨
      pyIndex n i = .error .indexError ∧ ¬ (-(n : Int) ≤ i ∧ i < n) := by
    intro n i
    unfold pyIndex
    split
    · exact Or.inl ⟨⟨_, rfl⟩, by omega, by omega⟩
    · split
      · exact Or.inl ⟨⟨_, rfl⟩, by omega, by omega⟩
      · exact Or.inr ⟨rfl, by omega⟩
  intro lines
  induction lines with
  | nil => rintro a ⟨p, hp, -⟩; simp at hp
  | cons q rest ih =>
    rintro a ⟨p, hp, hbad⟩
    obtain ⟨i, j⟩ := q
    rcases idx dim i with ⟨⟨n, hn⟩, a1, a2⟩ | ⟨hn, -⟩
    · rcases idx L j with ⟨⟨l, hl⟩, b1, b2⟩ | ⟨hl, -⟩
      · simp only [setAll, hn, hl, bind, Except.bind]
        rcases List.mem_cons.mp hp with rfl | hp
        · exact absurd ⟨a1, a2, b1, b2⟩ hbad
        · exact ih _ ⟨p, hp, hbad⟩
      · simp only [setAll, hn, hl, bind, Except.bind]
    · simp only [setAll, hn, bind, Except.bind]

/-- **C135 (error branches).** An entry outside of the first factor is reported, as are data that do not have three dimensions. -/
theorem C135_rejects (X : Arr Int) (L : Nat) (c : Bool) (f1 f2 f3 : List (Int × Int)) :
    (∀ N D M, X.shape = [N, D, M] → f1.length ≠ 1 → (∃ p ∈ f1, ¬ (-(N : Int) ≤ p.1 ∧ p.1 < N ∧ -(L : Int) ≤ p.2 ∧ p.2 < L)) →
      dbtf_reconstruct X L c f1 f2 f3 = .error .indexError) ∧
    (X.shape.length ≠ 3 → dbtf_reconstruct X L c f1 f2 f3 = .error .valueError) := by
  constructor
  · intro N D M hX h1 hbad
    have : dbtfFactor N L (loadtxt f1) = .error .indexError := by
      match f1, h1, hbad with
      | [], _, hbad => obtain ⟨p, hp, -⟩ := hbad; simp at hp
      | [_], h1, _ => simp at h1
      | p :: q :: rest, _, hbad => exact setAll_rejects _ _ hbad
    simp only [dbtf_reconstruct, hX, this, bind, Except.bind]
  · intro h
    unfold dbtf_reconstruct
    split
    · rename_i e; rw [e] at h; simp at h
    · rfl

/-- **C135 (input of the program).** The file written for the program lists every position whose entry is one, each once and no
other. -/
theorem C135_input (X : Arr Int) : (sparse_tensor X).Nodup ∧ ∀ i, i ∈ sparse_tensor X ↔ InB X.shape i ∧ X i = 1 := by
  refine ⟨(nodup_indices X.shape).filter _, fun i => ?_⟩
  simp [sparse_tensor, mem_indices]

/-- hypotheses of C135 met: three files of two, none and three lines -/
theorem C135_hypotheses_met : Lists 2 2 [(0, 1), (1, 0)] ∧ Lists 3 2 [] ∧ Lists 2 2 [(0, 0), (0, 1), (1, 1)] ∧
    (Arr.full [2, 3, 2] (1 : Int)).shape = [2, 3, 2] := by
  refine ⟨?_, ?_, ?_, rfl⟩ <;> simp [Lists]

end LFM
