import Verif.Props.Generate
import Verif.Props.NoiseFree
import Verif.Lemmas.EveryData
import Verif.Lemmas.Counting
import Verif.Props.Splits

/-!
# C132, C134: what more latent dimensions can do
-/

namespace LFM

open Spec

/-! ## C132: one more latent dimension -/

/-- operators whose value does not change when a false argument is added -/
theorem holds_add (o : LOp) {L : Nat} (p : Fin (L + 1) → Prop) (h : p (Fin.last L) ↔ (o = .AND ∨ o = .NAND)) :
    o.Holds p ↔ o.Holds fun l : Fin L => p l.castSucc := by
  cases o with
  | AND => simp only [LOp.Holds, Fin.forall_fin_succ', h]; simp
  | NAND => simp only [LOp.Holds, Fin.forall_fin_succ', h]; simp
  | OR => simp only [LOp.Holds, Fin.exists_fin_succ', h]; simp
  | NOR => simp only [LOp.Holds, Fin.exists_fin_succ', h]; simp
  | XOR =>
    simp only [LOp.Holds, ExistsUnique, Fin.exists_fin_succ', Fin.forall_fin_succ', h]
    simp
  | NXOR =>
    simp only [LOp.Holds, ExistsUnique, Fin.exists_fin_succ', Fin.forall_fin_succ', h]
    simp

/-- every operator takes both values on any positive number of arguments -/
theorem holds_onto (i : LOp) {K : Nat} (hK : 0 < K) (b : Prop) : ∃ c : Fin K → Prop, i.Holds c ↔ b := by
  have h0 : ∀ q : Prop, (∃! k : Fin K, (k = ⟨0, hK⟩ ∧ q)) ↔ q := by
    intro q
    constructor
    · rintro ⟨k, hk, -⟩; exact hk.2
    · exact fun hq => ⟨⟨0, hK⟩, ⟨rfl, hq⟩, fun k hk => hk.1⟩
  have hall : ∀ q : Prop, (∀ _ : Fin K, q) ↔ q := fun q => ⟨fun h => h ⟨0, hK⟩, fun h _ => h⟩
  have hex : ∀ q : Prop, (∃ _ : Fin K, q) ↔ q := fun q => ⟨fun ⟨_, h⟩ => h, fun h => ⟨⟨0, hK⟩, h⟩⟩
  cases i with
  | AND => exact ⟨fun _ => b, hall b⟩
  | NAND => exact ⟨fun _ => ¬ b, (not_congr (hall _)).trans not_not⟩
  | OR => exact ⟨fun _ => b, hex b⟩
  | NOR => exact ⟨fun _ => ¬ b, (not_congr (hex _)).trans not_not⟩
  | XOR => exact ⟨fun k => k = ⟨0, hK⟩ ∧ b, h0 b⟩
  | NXOR => exact ⟨fun k => k = ⟨0, hK⟩ ∧ ¬ b, (not_congr (h0 _)).trans not_not⟩

/-- `factors'` are `factors` with one more column, constant in each factor -/
structure Spec.OneMore (L : Nat) (factors factors' : List (Arr Int)) : Prop where
  length : factors'.length = factors.length
  columns : Columns factors' (L + 1)
  rows : rowCounts factors' = rowCounts factors
  old : ∀ (k : Nat) (h : k < factors.length) (h' : k < factors'.length) (n l : Nat), l < L → factors'[k] [n, l] = factors[k] [n, l]
  new : ∀ (k : Nat) (h : k < factors'.length), ∃ v : Int, IsPM v ∧ ∀ n, factors'[k] [n, L] = v

/-- **C132 (generated data).** For each of the 36 models and any number of factors, a constant column can be added to every factor
such that the generated data stay the same. -/
theorem C132_one_more (o i : LOp) (L : Nat) (factors : List (Arr Int)) (hne : factors ≠ []) (hcol : Columns factors L) :
    ∃ factors' X X', OneMore L factors factors' ∧ lom_generate_data factors (modelName o i) = .ok X ∧
      lom_generate_data factors' (modelName o i) = .ok X' ∧ X'.shape = X.shape ∧ ∀ idx, InB X.shape idx → X' idx = X idx := by
  classical
  obtain ⟨c, hc⟩ := holds_onto i (List.length_pos_iff.mpr hne) (o = .AND ∨ o = .NAND)
  let ext : Arr Int → Prop → Arr Int := fun a P => ⟨[a.shape.headD 0, L + 1], fun idx =>
    if idx.getD 1 0 = L then pm P else a idx⟩
  let fs : List (Arr Int) := List.ofFn fun k : Fin factors.length => ext factors[k] (c k)
  have hlen : fs.length = factors.length := by simp [fs]
  have hget : ∀ (k : Nat) (h : k < fs.length), fs[k] = ext (factors[k]'(hlen ▸ h)) (c ⟨k, hlen ▸ h⟩) := by
    intro k h; simp [fs]
  have hcol' : Columns fs (L + 1) := by
    intro f hf
    obtain ⟨k, hk, rfl⟩ := List.getElem_of_mem hf
    exact ⟨_, by rw [hget k hk]⟩
  have hrows : rowCounts fs = rowCounts factors := by
    unfold rowCounts
    refine List.ext_getElem (by simp [hlen]) fun k h1 h2 => ?_
    rw [List.getElem_map, List.getElem_map, hget]
    rfl
  obtain ⟨X, hX, sX, vX⟩ := C03_all_models_all_arities o i L factors hne hcol
  obtain ⟨X', hX', sX', vX'⟩ := C03_all_models_all_arities o i (L + 1) fs (by
    intro e; rw [e] at hlen; exact hne (List.length_eq_zero_iff.mp hlen.symm)) hcol'
  refine ⟨fs, X, X', ⟨hlen, hcol', hrows, ?_, ?_⟩, hX, hX', by rw [sX, sX', hrows], ?_⟩
  · intro k h h' n l hl
    rw [hget k h']
    have : l ≠ L := by omega
    simp [ext, this]
  · intro k h
    refine ⟨pm (c ⟨k, hlen ▸ h⟩), ?_, fun n => ?_⟩
    · by_cases hp : c ⟨k, hlen ▸ h⟩
      · exact Or.inl (by simp [pm, hp])
      · exact Or.inr (by simp [pm, hp])
    · rw [hget k h]; simp [ext]
  · intro idx hi
    rw [sX] at hi
    rw [vX idx hi, vX' idx (by rwa [hrows])]
    refine pm_congr ?_
    have hin : ∀ (l : Nat) (P : Fin factors.length → Prop), (∀ k : Fin fs.length, (fs[k] [idx.getD k 0, l] = 1 ↔ P (finCongr hlen k))) →
        ((i.Holds fun k : Fin fs.length => fs[k] [idx.getD k 0, l] = 1) ↔ i.Holds P) := by
      intro l P hP
      have this : (i.Holds fun k : Fin fs.length => P (finCongr hlen k)) ↔ i.Holds P := by
        have := holds_fin_congr (L := 1) hlen .AND i fun _ k => P k
        exact ⟨fun hh => this.mp (fun _ => hh) 0, fun hh => this.mpr (fun _ => hh) 0⟩
      rw [← this]
      have e : (fun k : Fin fs.length => fs[k] [idx.getD k 0, l] = 1) = fun k => P (finCongr hlen k) := funext fun k => propext (hP k)
      rw [e]
    unfold lom
    rw [holds_add]
    · have e : ∀ l : Fin L, (i.Holds fun k : Fin fs.length => fs[k] [idx.getD k 0, (l.castSucc : Nat)] = 1) ↔
          i.Holds fun k : Fin factors.length => factors[k] [idx.getD k 0, l] = 1 := by
        intro l
        refine hin _ _ fun k => ?_
        have hl : (l : Nat) ≠ L := by omega
        rw [Fin.getElem_fin, hget k k.2]
        simp [ext, hl]
      rw [show (fun l : Fin L => i.Holds fun k : Fin fs.length => fs[k] [idx.getD k 0, (l.castSucc : Nat)] = 1) = _ from
        funext fun l => propext (e l)]
    · refine (hin _ c fun k => ?_).trans hc
      rw [Fin.getElem_fin, hget k k.2]
      show (if L = L then pm (c ⟨k, hlen ▸ k.2⟩) else _) = 1 ↔ c ⟨k, hlen ▸ k.2⟩
      rw [if_pos rfl]
      by_cases hp : c ⟨k, hlen ▸ k.2⟩ <;> simp [pm, hp]

/-- a row with one more entry -/
def withLast (L : Nat) (F : Factor) (v : Int) : Factor := fun n l => if l = L then v else F n l

theorem pred2_more (m : Lom8) (L : Nat) : ∃ a b : Int, IsPM a ∧ IsPM b ∧ ∀ (F G : Factor) (n d : Nat),
    pred2 m (L + 1) (withLast L F a n) (withLast L G b d) = pred2 m L (F n) (G d) := by
  classical
  obtain ⟨c, hc⟩ := holds_onto m.inner (show 0 < 2 by decide) (m.outer = .AND ∨ m.outer = .NAND)
  refine ⟨pm (c 0), pm (c 1), ?_, ?_, fun F G n d => pm_congr ?_⟩
  · by_cases h : c 0 <;> simp [pm, h, IsPM]
  · by_cases h : c 1 <;> simp [pm, h, IsPM]
  · unfold lom
    rw [holds_add]
    · have : ∀ l : Fin L, (l : Nat) ≠ L := fun l => by omega
      simp [withLast, this]
    · rw [← hc]
      refine iff_of_eq (congrArg _ (funext fun k => propext ?_))
      match k with
      | 0 => by_cases h : c 0 <;> simp [withLast, pm, h]
      | 1 => by_cases h : c 1 <;> simp [withLast, pm, h]

theorem pred3_more (m : Lom8) (L : Nat) : ∃ a b e : Int, IsPM a ∧ IsPM b ∧ IsPM e ∧ ∀ (F G H : Factor) (n d k : Nat),
    pred3 m (L + 1) (withLast L F a n) (withLast L G b d) (withLast L H e k) = pred3 m L (F n) (G d) (H k) := by
  classical
  obtain ⟨c, hc⟩ := holds_onto m.inner (show 0 < 3 by decide) (m.outer = .AND ∨ m.outer = .NAND)
  refine ⟨pm (c 0), pm (c 1), pm (c 2), ?_, ?_, ?_, fun F G H n d k => pm_congr ?_⟩
  · by_cases h : c 0 <;> simp [pm, h, IsPM]
  · by_cases h : c 1 <;> simp [pm, h, IsPM]
  · by_cases h : c 2 <;> simp [pm, h, IsPM]
  · unfold lom
    rw [holds_add]
    · have : ∀ l : Fin L, (l : Nat) ≠ L := fun l => by omega
      simp [withLast, this]
    · rw [← hc]
      refine iff_of_eq (congrArg _ (funext fun k => propext ?_))
      match k with
      | 0 => by_cases h : c 0 <;> simp [withLast, pm, h]
      | 1 => by_cases h : c 1 <;> simp [withLast, pm, h]
      | 2 => by_cases h : c 2 <;> simp [withLast, pm, h]

theorem withLast_pm {L : Nat} {F : Factor} {v : Int} (hF : ∀ n, ∀ l < L, IsPM (F n l)) (hv : IsPM v) :
    ∀ n, ∀ l < L + 1, IsPM (withLast L F v n l) := by
  intro n l hl
  unfold withLast
  split
  · exact hv
  · exact hF n l (by omega)

/-- **C132 (likelihood, two dimensions).** Whatever likelihood binary factors of `L` latent dimensions reach on a data array, binary
factors of `L' ≥ L` latent dimensions reach as well; the best fit does not get worse when dimensions are added. -/
theorem C132_best_2d (m : Lom8) {N D L L' : Nat} (hL : L ≤ L') (lbda : ℝ) (X : Nat → Nat → Int) (F G : Factor)
    (hF : ∀ n, ∀ l < L, IsPM (F n l)) (hG : ∀ n, ∀ l < L, IsPM (G n l)) : ∃ F' G' : Factor,
      (∀ n, ∀ l < L', IsPM (F' n l)) ∧ (∀ n, ∀ l < L', IsPM (G' n l)) ∧ (∀ n, ∀ l < L, F' n l = F n l ∧ G' n l = G n l) ∧
      lik2 m N D L' lbda X F' G' = lik2 m N D L lbda X F G ∧ (Reproduces2 m N D L X F G → Reproduces2 m N D L' X F' G') := by
  induction hL with
  | refl => exact ⟨F, G, hF, hG, fun _ _ _ => ⟨rfl, rfl⟩, rfl, id⟩
  | @step L1 h1 ih =>
    have h1 : L ≤ L1 := h1
    obtain ⟨F1, G1, pF, pG, hold, hlik, hrep⟩ := ih
    obtain ⟨a, b, ha, hb, hab⟩ := pred2_more m L1
    refine ⟨withLast L1 F1 a, withLast L1 G1 b, withLast_pm pF ha, withLast_pm pG hb, ?_, ?_, ?_⟩
    · intro n l hl
      have : l ≠ L1 := by omega
      simpa [withLast, this] using hold n l hl
    · rw [← hlik]; simp only [lik2, hab]
    · intro hr n hn d hd hx
      rw [hab]; exact hrep hr n hn d hd hx

/-- **C132 (likelihood, three dimensions).** -/
theorem C132_best_3d (m : Lom8) {N D M L L' : Nat} (hL : L ≤ L') (lbda : ℝ) (X : Nat → Nat → Nat → Int) (F G H : Factor)
    (hF : ∀ n, ∀ l < L, IsPM (F n l)) (hG : ∀ n, ∀ l < L, IsPM (G n l)) (hH : ∀ n, ∀ l < L, IsPM (H n l)) : ∃ F' G' H' : Factor,
      (∀ n, ∀ l < L', IsPM (F' n l)) ∧ (∀ n, ∀ l < L', IsPM (G' n l)) ∧ (∀ n, ∀ l < L', IsPM (H' n l)) ∧
      (∀ n, ∀ l < L, F' n l = F n l ∧ G' n l = G n l ∧ H' n l = H n l) ∧
      lik3 m N D M L' lbda X F' G' H' = lik3 m N D M L lbda X F G H ∧
      (Reproduces3 m N D M L X F G H → Reproduces3 m N D M L' X F' G' H') := by
  induction hL with
  | refl => exact ⟨F, G, H, hF, hG, hH, fun _ _ _ => ⟨rfl, rfl, rfl⟩, rfl, id⟩
  | @step L1 h1 ih =>
    have h1 : L ≤ L1 := h1
    obtain ⟨F1, G1, H1, pF, pG, pH, hold, hlik, hrep⟩ := ih
    obtain ⟨a, b, e, ha, hb, he, hab⟩ := pred3_more m L1
    refine ⟨withLast L1 F1 a, withLast L1 G1 b, withLast L1 H1 e, withLast_pm pF ha, withLast_pm pG hb, withLast_pm pH he, ?_, ?_, ?_⟩
    · intro n l hl
      have : l ≠ L1 := by omega
      simpa [withLast, this] using hold n l hl
    · rw [← hlik]; simp only [lik3, hab]
    · intro hr n hn d hd k hk hx
      rw [hab]; exact hrep hr n hn d hd k hk hx

/-- hypotheses of C132 met: two factors of two columns, and binary rows -/
theorem C132_hypotheses_met : Columns [Arr.full [3, 2] 1, Arr.full [4, 2] (-1)] 2 ∧ [Arr.full [3, 2] (1 : Int), Arr.full [4, 2] (-1)] ≠ [] ∧
    ∃ F : Factor, (∀ n, ∀ l < 2, IsPM (F n l)) ∧ F 0 0 ≠ F 0 1 := by
  refine ⟨?_, by simp, fun _ l => if l = 0 then 1 else -1, ?_, by simp⟩
  · intro f hf
    simp only [List.mem_cons, List.not_mem_nil, or_false] at hf
    rcases hf with rfl | rfl
    · exact ⟨3, rfl⟩
    · exact ⟨4, rfl⟩
  · intro n l _
    by_cases h : l = 0 <;> simp [h, IsPM]

/-! ## C134: which models can make every matrix -/

namespace Spec

/-- the twelve models that are said to reach every binary matrix -/
def coversAll : LOp → LOp → Bool
  | .OR, .AND | .OR, .NOR | .NOR, .AND | .NOR, .NOR => true
  | .AND, .OR | .AND, .NAND | .NAND, .OR | .NAND, .NAND => true
  | .XOR, .AND | .XOR, .NOR | .NXOR, .AND | .NXOR, .NOR => true
  | _, _ => false

/-- some binary factors with `L` columns generate the `N × D` matrix `X` -/
def Makes (o i : LOp) (N D L : Nat) (X : Arr Int) : Prop :=
  ∃ Z U Y : Arr Int, Z.shape = [N, L] ∧ U.shape = [D, L] ∧ PMArr Z ∧ PMArr U ∧ lom_generate_data [Z, U] (modelName o i) = .ok Y ∧
    Y.shape = [N, D] ∧ ∀ n < N, ∀ d < D, Y [n, d] = X [n, d]

end Spec

/-- the same for truth values -/
def Made (o i : LOp) (N D L : Nat) (B : Nat → Nat → Prop) : Prop :=
  ∃ a b : Nat → Nat → Prop, ∀ n < N, ∀ d < D, B n d ↔ lom o i fun (l : Fin L) (k : Fin 2) => ![a n l, b d l] k

theorem covers_table (o i : LOp) : ∃ (m : Lom8) (d f : Bool), decide (m = .OR_AND ∨ m = .XOR_AND) = coversAll o i ∧
    ∀ (ι κ : Type) (x : ι → κ → Prop),
      lom o i x ↔ (if d then ¬ lom m.outer m.inner (fun l k => if f then ¬ x l k else x l k)
        else lom m.outer m.inner (fun l k => if f then ¬ x l k else x l k)) := by
  match o, i with
  | .AND, .AND => exact ⟨.OR_NAND, true, false, rfl, fun ι κ x => by simp [lom, LOp.Holds, Lom8.outer, Lom8.inner]⟩
  | .AND, .NAND => exact ⟨.OR_AND, true, false, rfl, fun ι κ x => by simp [lom, LOp.Holds, Lom8.outer, Lom8.inner]⟩
  | .AND, .OR => exact ⟨.OR_AND, true, true, rfl, fun ι κ x => by simp [lom, LOp.Holds, Lom8.outer, Lom8.inner]⟩
  | .AND, .NOR => exact ⟨.OR_NAND, true, true, rfl, fun ι κ x => by simp [lom, LOp.Holds, Lom8.outer, Lom8.inner]⟩
  | .AND, .XOR => exact ⟨.NAND_XOR, true, false, rfl, fun ι κ x => by simp [lom, LOp.Holds, Lom8.outer, Lom8.inner]⟩
  | .AND, .NXOR => exact ⟨.OR_XOR, true, false, rfl, fun ι κ x => by simp [lom, LOp.Holds, Lom8.outer, Lom8.inner]⟩
  | .NAND, .AND => exact ⟨.OR_NAND, false, false, rfl, fun ι κ x => by simp [lom, LOp.Holds, Lom8.outer, Lom8.inner]⟩
  | .NAND, .NAND => exact ⟨.OR_AND, false, false, rfl, fun ι κ x => by simp [lom, LOp.Holds, Lom8.outer, Lom8.inner]⟩
  | .NAND, .OR => exact ⟨.OR_AND, false, true, rfl, fun ι κ x => by simp [lom, LOp.Holds, Lom8.outer, Lom8.inner]⟩
  | .NAND, .NOR => exact ⟨.OR_NAND, false, true, rfl, fun ι κ x => by simp [lom, LOp.Holds, Lom8.outer, Lom8.inner]⟩
  | .NAND, .XOR => exact ⟨.NAND_XOR, false, false, rfl, fun ι κ x => by simp [lom, LOp.Holds, Lom8.outer, Lom8.inner]⟩
  | .NAND, .NXOR => exact ⟨.OR_XOR, false, false, rfl, fun ι κ x => by simp [lom, LOp.Holds, Lom8.outer, Lom8.inner]⟩
  | .OR, .AND => exact ⟨.OR_AND, false, false, rfl, fun ι κ x => by simp [lom, LOp.Holds, Lom8.outer, Lom8.inner]⟩
  | .OR, .NAND => exact ⟨.OR_NAND, false, false, rfl, fun ι κ x => by simp [lom, LOp.Holds, Lom8.outer, Lom8.inner]⟩
  | .OR, .OR => exact ⟨.OR_NAND, false, true, rfl, fun ι κ x => by simp [lom, LOp.Holds, Lom8.outer, Lom8.inner]⟩
  | .OR, .NOR => exact ⟨.OR_AND, false, true, rfl, fun ι κ x => by simp [lom, LOp.Holds, Lom8.outer, Lom8.inner]⟩
  | .OR, .XOR => exact ⟨.OR_XOR, false, false, rfl, fun ι κ x => by simp [lom, LOp.Holds, Lom8.outer, Lom8.inner]⟩
  | .OR, .NXOR => exact ⟨.NAND_XOR, false, false, rfl, fun ι κ x => by simp [lom, LOp.Holds, Lom8.outer, Lom8.inner]⟩
  | .NOR, .AND => exact ⟨.OR_AND, true, false, rfl, fun ι κ x => by simp [lom, LOp.Holds, Lom8.outer, Lom8.inner]⟩
  | .NOR, .NAND => exact ⟨.OR_NAND, true, false, rfl, fun ι κ x => by simp [lom, LOp.Holds, Lom8.outer, Lom8.inner]⟩
  | .NOR, .OR => exact ⟨.OR_NAND, true, true, rfl, fun ι κ x => by simp [lom, LOp.Holds, Lom8.outer, Lom8.inner]⟩
  | .NOR, .NOR => exact ⟨.OR_AND, true, true, rfl, fun ι κ x => by simp [lom, LOp.Holds, Lom8.outer, Lom8.inner]⟩
  | .NOR, .XOR => exact ⟨.OR_XOR, true, false, rfl, fun ι κ x => by simp [lom, LOp.Holds, Lom8.outer, Lom8.inner]⟩
  | .NOR, .NXOR => exact ⟨.NAND_XOR, true, false, rfl, fun ι κ x => by simp [lom, LOp.Holds, Lom8.outer, Lom8.inner]⟩
  | .XOR, .AND => exact ⟨.XOR_AND, false, false, rfl, fun ι κ x => by simp [lom, LOp.Holds, Lom8.outer, Lom8.inner]⟩
  | .XOR, .NAND => exact ⟨.XOR_NAND, false, false, rfl, fun ι κ x => by simp [lom, LOp.Holds, Lom8.outer, Lom8.inner]⟩
  | .XOR, .OR => exact ⟨.XOR_NAND, false, true, rfl, fun ι κ x => by simp [lom, LOp.Holds, Lom8.outer, Lom8.inner]⟩
  | .XOR, .NOR => exact ⟨.XOR_AND, false, true, rfl, fun ι κ x => by simp [lom, LOp.Holds, Lom8.outer, Lom8.inner]⟩
  | .XOR, .XOR => exact ⟨.XOR_XOR, false, false, rfl, fun ι κ x => by simp [lom, LOp.Holds, Lom8.outer, Lom8.inner]⟩
  | .XOR, .NXOR => exact ⟨.XOR_NXOR, false, false, rfl, fun ι κ x => by simp [lom, LOp.Holds, Lom8.outer, Lom8.inner]⟩
  | .NXOR, .AND => exact ⟨.XOR_AND, true, false, rfl, fun ι κ x => by simp [lom, LOp.Holds, Lom8.outer, Lom8.inner]⟩
  | .NXOR, .NAND => exact ⟨.XOR_NAND, true, false, rfl, fun ι κ x => by simp [lom, LOp.Holds, Lom8.outer, Lom8.inner]⟩
  | .NXOR, .OR => exact ⟨.XOR_NAND, true, true, rfl, fun ι κ x => by simp [lom, LOp.Holds, Lom8.outer, Lom8.inner]⟩
  | .NXOR, .NOR => exact ⟨.XOR_AND, true, true, rfl, fun ι κ x => by simp [lom, LOp.Holds, Lom8.outer, Lom8.inner]⟩
  | .NXOR, .XOR => exact ⟨.XOR_XOR, true, false, rfl, fun ι κ x => by simp [lom, LOp.Holds, Lom8.outer, Lom8.inner]⟩
  | .NXOR, .NXOR => exact ⟨.XOR_NXOR, true, false, rfl, fun ι κ x => by simp [lom, LOp.Holds, Lom8.outer, Lom8.inner]⟩

theorem makes_iff (o i : LOp) {N D L : Nat} {X : Arr Int} (hX : X.shape = [N, D]) (pX : PMArr X) :
    Makes o i N D L X ↔ Made o i N D L fun n d => X [n, d] = 1 := by
  classical
  have gen : ∀ Z U : Arr Int, Z.shape = [N, L] → U.shape = [D, L] → ∃ Y, lom_generate_data [Z, U] (modelName o i) = .ok Y ∧
      Y.shape = [N, D] ∧ ∀ n < N, ∀ d < D, Y [n, d] = pm (lom o i fun (l : Fin L) (k : Fin 2) => ![Z [n, l] = 1, U [d, l] = 1] k) := by
    intro Z U hZ hU
    obtain ⟨Y, hY, sY, vY⟩ := C03_all_models_all_arities o i L [Z, U] (by simp) (by
      intro g hg
      simp only [List.mem_cons, List.not_mem_nil, or_false] at hg
      rcases hg with rfl | rfl
      · exact ⟨N, hZ⟩
      · exact ⟨D, hU⟩)
    have hrc : rowCounts [Z, U] = [N, D] := by simp [rowCounts, hZ, hU]
    rw [hrc] at vY sY
    refine ⟨Y, hY, sY, fun n hn d hd => ?_⟩
    rw [vY [n, d] ⟨hn, hd, trivial⟩]
    refine pm_congr (iff_of_eq (congrArg (lom o i) (funext fun l => funext fun k => ?_)))
    match k with
    | 0 => rfl
    | 1 => rfl
  have pm1 : ∀ P : Prop, pm P = 1 ↔ P := fun P => by by_cases h : P <;> simp [pm, h]
  constructor
  · rintro ⟨Z, U, Y, hZ, hU, -, -, hY, -, hv⟩
    obtain ⟨Y', hY', -, vY⟩ := gen Z U hZ hU
    rw [hY] at hY'
    cases hY'
    refine ⟨fun n l => Z [n, l] = 1, fun d l => U [d, l] = 1, fun n hn d hd => ?_⟩
    show X [n, d] = 1 ↔ _
    rw [← hv n hn d hd, vY n hn d hd, pm1]
  · rintro ⟨a, b, h⟩
    let mk : Nat → (Nat → Nat → Prop) → Arr Int := fun R a => ⟨[R, L], fun idx => pm (a (idx.getD 0 0) (idx.getD 1 0))⟩
    have pmk : ∀ R a, PMArr (mk R a) := by
      intro R a idx _
      show IsPM (pm (a (idx.getD 0 0) (idx.getD 1 0)))
      by_cases hp : a (idx.getD 0 0) (idx.getD 1 0)
      · rw [pm_true hp]; exact Or.inl rfl
      · rw [pm_false hp]; exact Or.inr rfl
    obtain ⟨Y, hY, sY, vY⟩ := gen (mk N a) (mk D b) rfl rfl
    refine ⟨mk N a, mk D b, Y, rfl, rfl, pmk _ _, pmk _ _, hY, sY, fun n hn d hd => ?_⟩
    rw [vY n hn d hd]
    have e : (fun (l : Fin L) (k : Fin 2) => ![mk N a [n, l] = 1, mk D b [d, l] = 1] k) = fun (l : Fin L) (k : Fin 2) => ![a n l, b d l] k := by
      funext l k
      match k with
      | 0 => exact propext (pm1 _)
      | 1 => exact propext (pm1 _)
    rw [e, ← propext (h n hn d hd)]
    rcases pX [n, d] (by rw [hX]; exact ⟨hn, hd, trivial⟩) with e | e <;> simp [pm, e]

theorem made_canonical {o i : LOp} {m : Lom8} {iv f : Bool} (heq : ∀ (ι κ : Type) (x : ι → κ → Prop),
      lom o i x ↔ (if iv then ¬ lom m.outer m.inner (fun l k => if f then ¬ x l k else x l k)
        else lom m.outer m.inner (fun l k => if f then ¬ x l k else x l k))) {N D L : Nat} (B : Nat → Nat → Prop) :
    Made o i N D L B ↔ Made m.outer m.inner N D L fun n d => if iv then ¬ B n d else B n d := by
  have flip : ∀ (a b : Nat → Nat → Prop) (n d : Nat), (fun (l : Fin L) (k : Fin 2) => if f = true then ¬ ![a n l, b d l] k else ![a n l, b d l] k) =
      fun (l : Fin L) (k : Fin 2) => ![if f = true then ¬ a n l else a n l, if f = true then ¬ b d l else b d l] k := by
    intro a b n d
    funext l k
    match k with
    | 0 => rfl
    | 1 => rfl
  constructor
  · rintro ⟨a, b, h⟩
    refine ⟨fun n l => if f = true then ¬ a n l else a n l, fun d l => if f = true then ¬ b d l else b d l, fun n hn d hd => ?_⟩
    have := (h n hn d hd).trans (heq (Fin L) (Fin 2) _)
    rw [flip] at this
    cases iv
    · simpa using this
    · simp only [if_true] at this ⊢
      rw [this, not_not]
  · rintro ⟨a, b, h⟩
    refine ⟨fun n l => if f = true then ¬ a n l else a n l, fun d l => if f = true then ¬ b d l else b d l, fun n hn d hd => ?_⟩
    have h1 := h n hn d hd
    refine Iff.trans ?_ (heq (Fin L) (Fin 2) _).symm
    have e : (fun (l : Fin L) (k : Fin 2) => if f = true then ¬ ![if f = true then ¬ a n l else a n l, if f = true then ¬ b d l else b d l] k
        else ![if f = true then ¬ a n l else a n l, if f = true then ¬ b d l else b d l] k) = fun (l : Fin L) (k : Fin 2) => ![a n l, b d l] k := by
      rw [flip (fun n l => if f = true then ¬ a n l else a n l) (fun d l => if f = true then ¬ b d l else b d l)]
      cases f <;> simp
    rw [e]
    cases iv
    · simpa using h1
    · simp only [if_true] at h1 ⊢
      rw [← h1, not_not]

/-- the inner operator of two factors -/
theorem inner_two (a b : Prop) : (LOp.AND.Holds (fun k : Fin 2 => ![a, b] k) ↔ a ∧ b) ∧ (LOp.NAND.Holds (fun k : Fin 2 => ![a, b] k) ↔ ¬ (a ∧ b)) ∧
    (LOp.XOR.Holds (fun k : Fin 2 => ![a, b] k) ↔ ¬ (a ↔ b)) ∧ (LOp.NXOR.Holds (fun k : Fin 2 => ![a, b] k) ↔ (a ↔ b)) := by
  classical
  by_cases ha : a <;> by_cases hb : b <;> simp [LOp.Holds, ExistsUnique, Fin.forall_fin_two, Fin.exists_fin_two, ha, hb]

theorem made_rows (m : Lom8) (hm : m = .OR_AND ∨ m = .XOR_AND) (N D : Nat) (B : Nat → Nat → Prop) : Made m.outer m.inner N D N B := by
  refine ⟨fun n l => n = l, fun d l => B l d, fun n hn d _ => ?_⟩
  unfold lom
  rcases hm with rfl | rfl <;> simp only [Lom8.outer, Lom8.inner, (inner_two _ _).1]
  · exact ⟨fun h => ⟨⟨n, hn⟩, rfl, h⟩, fun ⟨l, e, h⟩ => by rw [e]; exact h⟩
  · exact ⟨fun h => ⟨⟨n, hn⟩, ⟨rfl, h⟩, fun l hl => Fin.ext hl.1.symm⟩, fun ⟨l, ⟨e, h⟩, _⟩ => by rw [e]; exact h⟩

theorem made_columns (m : Lom8) (hm : m = .OR_AND ∨ m = .XOR_AND) (N D : Nat) (B : Nat → Nat → Prop) : Made m.outer m.inner N D D B := by
  refine ⟨fun n l => B n l, fun d l => d = l, fun n _ d hd => ?_⟩
  unfold lom
  rcases hm with rfl | rfl <;> simp only [Lom8.outer, Lom8.inner, (inner_two _ _).1]
  · exact ⟨fun h => ⟨⟨d, hd⟩, h, rfl⟩, fun ⟨l, h, e⟩ => by rw [e]; exact h⟩
  · exact ⟨fun h => ⟨⟨d, hd⟩, ⟨h, rfl⟩, fun l hl => Fin.ext hl.2.symm⟩, fun ⟨l, ⟨h, e⟩, _⟩ => by rw [e]; exact h⟩

/-- a matrix that the other canonical models do not make -/
def hardCell : Nat → Nat → Bool
  | 0, 3 => false
  | 2, 2 => false
  | 2, 3 => false
  | 3, 1 => false
  | 3, 3 => false
  | _, _ => true

/-- two rows at distance one of three columns are equal, or two of the columns are -/
theorem three_neighbours {L : Nat} {z w : Fin L → Prop} {u : Fin 3 → Fin L → Prop} (hz : ∀ j, ∃! l, ¬ (z l ↔ u j l))
    (hw : ∀ j, ∃! l, ¬ (w l ↔ u j l)) : (∀ l, z l ↔ w l) ∨ ∃ j j', j ≠ j' ∧ ∀ l, u j l ↔ u j' l := by
  classical
  by_cases h : ∀ l, z l ↔ w l
  · exact Or.inl h
  right
  push Not at h
  obtain ⟨l0, h0⟩ := h
  have h0 : ¬ (z l0 ↔ w l0) := by tauto
  have same : ∀ {x : Fin L → Prop} (_ : ∀ j, ∃! l, ¬ (x l ↔ u j l)) {j j' : Fin 3}, ¬ (x l0 ↔ u j l0) → ¬ (x l0 ↔ u j' l0) → ∀ l, u j l ↔ u j' l := by
    intro x hx j j' hj hj' l
    by_cases hl : l = l0
    · subst hl; tauto
    · have a1 : x l ↔ u j l := by
        by_contra hc; exact hl ((hx j).unique hc hj)
      have a2 : x l ↔ u j' l := by
        by_contra hc; exact hl ((hx j').unique hc hj')
      exact a1.symm.trans a2
  have cls : ∀ j, ¬ (z l0 ↔ u j l0) ∨ ¬ (w l0 ↔ u j l0) := fun j => by tauto
  rcases cls 0 with c0 | c0 <;> rcases cls 1 with c1 | c1 <;> rcases cls 2 with c2 | c2
  · exact ⟨0, 1, by decide, same hz c0 c1⟩
  · exact ⟨0, 1, by decide, same hz c0 c1⟩
  · exact ⟨0, 2, by decide, same hz c0 c2⟩
  · exact ⟨1, 2, by decide, same hw c1 c2⟩
  · exact ⟨1, 2, by decide, same hz c1 c2⟩
  · exact ⟨0, 2, by decide, same hw c0 c2⟩
  · exact ⟨0, 1, by decide, same hw c0 c1⟩
  · exact ⟨0, 1, by decide, same hw c0 c1⟩

/-- if the value at `(n, d)` depends on the two rows only, equal rows have equal values -/
theorem hard_rows {L : Nat} {R : (Fin L → Prop) → (Fin L → Prop) → Prop} {a b : Nat → Nat → Prop}
    (h : ∀ n < 4, ∀ d < 4, (hardCell n d = true) ↔ R (fun l => a n l) (fun l => b d l)) :
    (¬ ∀ l : Fin L, a 0 l ↔ a 1 l) ∧ ∀ j j' : Fin 3, j ≠ j' → ¬ ∀ l : Fin L, b j l ↔ b j' l := by
  have colEq : ∀ d < 4, ∀ d' < 4, (∀ l : Fin L, b d l ↔ b d' l) → ∀ n < 4, hardCell n d = hardCell n d' := by
    intro d hd d' hd' e n hn
    have e' : (fun l : Fin L => b d l) = fun l : Fin L => b d' l := funext fun l => propext (e l)
    have h1 := h n hn d hd
    have h2 := h n hn d' hd'
    rw [e'] at h1
    exact Bool.eq_iff_iff.mpr (h1.trans h2.symm)
  constructor
  · intro e
    have e' : (fun l : Fin L => a 0 l) = fun l : Fin L => a 1 l := funext fun l => propext (e l)
    have h1 := h 0 (by decide) 3 (by decide)
    have h2 := h 1 (by decide) 3 (by decide)
    rw [e'] at h1
    exact absurd (h1.mpr (h2.mp rfl)) (by decide)
  · intro j j' hne e
    have hc := colEq j (by omega) j' (by omega) e
    have c2 := hc 2 (by decide)
    have c3 := hc 3 (by decide)
    revert c2 c3 hne
    clear hc e colEq h
    revert j j'
    decide

theorem hard_not_made (m : Lom8) (hm : ¬ (m = .OR_AND ∨ m = .XOR_AND)) (L : Nat) :
    ¬ Made m.outer m.inner 4 4 L fun n d => hardCell n d = true := by
  classical
  rintro ⟨a, b, h⟩
  unfold lom at h
  cases m with
  | OR_AND => simp at hm
  | XOR_AND => simp at hm
  | OR_NAND =>
    simp only [Lom8.outer, Lom8.inner, (inner_two _ _).2.1] at h
    have h22 := (not_congr (h 2 (by decide) 2 (by decide))).mp (by decide)
    have h31 := (not_congr (h 3 (by decide) 1 (by decide))).mp (by decide)
    obtain ⟨l, hl⟩ := (h 2 (by decide) 1 (by decide)).mp (by decide)
    have x := not_exists.mp h22 l
    have y := not_exists.mp h31 l
    tauto
  | OR_XOR =>
    simp only [Lom8.outer, Lom8.inner, (inner_two _ _).2.2.1] at h
    have h03 := (not_congr (h 0 (by decide) 3 (by decide))).mp (by decide)
    have h22 := (not_congr (h 2 (by decide) 2 (by decide))).mp (by decide)
    have h23 := (not_congr (h 2 (by decide) 3 (by decide))).mp (by decide)
    obtain ⟨l, hl⟩ := (h 0 (by decide) 2 (by decide)).mp (by decide)
    have x := not_exists.mp h03 l
    have y := not_exists.mp h22 l
    have z := not_exists.mp h23 l
    tauto
  | NAND_XOR =>
    simp only [Lom8.outer, Lom8.inner, (inner_two _ _).2.2.1] at h
    have h03 := not_not.mp ((not_congr (h 0 (by decide) 3 (by decide))).mp (by decide))
    have h22 := not_not.mp ((not_congr (h 2 (by decide) 2 (by decide))).mp (by decide))
    have h23 := not_not.mp ((not_congr (h 2 (by decide) 3 (by decide))).mp (by decide))
    have h02 := (h 0 (by decide) 2 (by decide)).mp (by decide)
    refine h02 fun l => ?_
    have x := h03 l
    have y := h22 l
    have z := h23 l
    tauto
  | XOR_XOR =>
    simp only [Lom8.outer, Lom8.inner, (inner_two _ _).2.2.1] at h
    obtain ⟨r, c⟩ := hard_rows (R := fun x y => LOp.XOR.Holds fun l => ¬ (x l ↔ y l)) h
    have row : ∀ n, n = 0 ∨ n = 1 → ∀ j : Fin 3, ∃! l : Fin L, ¬ (a n l ↔ b j l) := by
      intro n hn j
      refine (h n (by omega) j (by omega)).mp ?_
      rcases hn with rfl | rfl <;> revert j <;> decide
    rcases three_neighbours (u := fun (j : Fin 3) l => b j l) (row 0 (Or.inl rfl)) (row 1 (Or.inr rfl)) with e | ⟨j, j', hne, e⟩
    · exact r e
    · exact c j j' hne e
  | XOR_NXOR =>
    simp only [Lom8.outer, Lom8.inner, (inner_two _ _).2.2.2] at h
    obtain ⟨r, c⟩ := hard_rows (R := fun x y => LOp.XOR.Holds fun l => (x l ↔ y l)) h
    have row : ∀ n, n = 0 ∨ n = 1 → ∀ j : Fin 3, ∃! l : Fin L, ¬ (a n l ↔ ¬ b j l) := by
      intro n hn j
      have : ∃! l : Fin L, (a n l ↔ b j l) := by
        refine (h n (by omega) j (by omega)).mp ?_
        rcases hn with rfl | rfl <;> revert j <;> decide
      have e : (fun l : Fin L => ¬ (a n l ↔ ¬ b j l)) = fun l : Fin L => (a n l ↔ b j l) := funext fun l => propext (by tauto)
      rw [e]; exact this
    rcases three_neighbours (u := fun (j : Fin 3) l => ¬ b j l) (row 0 (Or.inl rfl)) (row 1 (Or.inr rfl)) with e | ⟨j, j', hne, e⟩
    · exact r e
    · exact c j j' hne fun l => not_iff_not.mp (e l)
  | XOR_NAND =>
    simp only [Lom8.outer, Lom8.inner, (inner_two _ _).2.1] at h
    obtain ⟨-, c⟩ := hard_rows (R := fun x y => LOp.XOR.Holds fun l => ¬ (x l ∧ y l)) h
    have row : ∀ j : Fin 3, ∃! l : Fin L, ¬ (a 0 l ∧ b j l) := by
      intro j
      refine (h 0 (by omega) j (by omega)).mp ?_
      revert j; decide
    -- the first row has no entry off: otherwise the three columns are on elsewhere and two of them agree
    have on : ∀ l : Fin L, a 0 l := by
      intro l0
      by_contra h0
      have oth : ∀ j : Fin 3, ∀ l : Fin L, l ≠ l0 → b j l := by
        intro j l hl
        by_contra hb
        exact hl ((row j).unique (fun hh => hb hh.2) (fun hh => h0 hh.1))
      have eqv : ∀ j j' : Fin 3, (b j l0 ↔ b j' l0) → ∀ l : Fin L, b j l ↔ b j' l := by
        intro j j' e l
        by_cases hl : l = l0
        · rw [hl]; exact e
        · exact ⟨fun _ => oth j' l hl, fun _ => oth j l hl⟩
      by_cases p0 : b (0 : Fin 3) l0 <;> by_cases p1 : b (1 : Fin 3) l0 <;> by_cases p2 : b (2 : Fin 3) l0
      all_goals first
        | exact c 0 1 (by decide) (eqv 0 1 (by tauto))
        | exact c 0 2 (by decide) (eqv 0 2 (by tauto))
        | exact c 1 2 (by decide) (eqv 1 2 (by tauto))
    -- so every column has exactly one entry off
    have col : ∀ j : Fin 3, ∃! l : Fin L, ¬ b j l := by
      intro j
      have e : (fun l : Fin L => ¬ b j l) = fun l : Fin L => ¬ (a 0 l ∧ b j l) := funext fun l => propext (by have := on l; tauto)
      rw [e]; exact row j
    -- the third row shares columns 0 and 1, hence it has no entry off either
    have on2 : ∀ l : Fin L, a 2 l := by
      intro l0
      by_contra h0
      have g : ∀ j : Fin 3, j ≠ 2 → ¬ b j l0 := by
        intro j hj hb
        have u := (h 2 (by omega) j (by omega)).mp (by clear hb; revert j; decide)
        obtain ⟨l1, h1, -⟩ := col j
        have e : l1 = l0 := u.unique (fun hh => h1 hh.2) (fun hh => h0 hh.1)
        exact h1 (e ▸ hb)
      refine c 0 1 (by decide) fun l => ?_
      by_cases hl : l = l0
      · rw [hl]; exact iff_of_false (g 0 (by decide)) (g 1 (by decide))
      · have q : ∀ j : Fin 3, j ≠ 2 → b j l := by
          intro j hj
          by_contra hb
          exact hl ((col j).unique hb (g j hj))
        exact iff_of_true (q 0 (by decide)) (q 1 (by decide))
    have h22 := (not_congr (h 2 (by decide) 2 (by decide))).mp (by decide)
    refine h22 ?_
    have e : (fun l : Fin L => ¬ (a 2 l ∧ b 2 l)) = fun l : Fin L => ¬ b (2 : Fin 3) l := funext fun l => propext (by
      have := on2 l
      show ¬ (a 2 l ∧ b 2 l) ↔ ¬ b 2 l
      tauto)
    show ∃! l, _
    rw [e]
    exact col 2

/-- **C134 (twelve models).** OR-AND, XOR-AND and the ten models that equal one of them up to inverted data or factors make every
binary matrix with as many latent dimensions as it has rows, and with as many as it has columns. -/
theorem C134_every_matrix_partial (o i : LOp) (h : coversAll o i = true) (N D : Nat) (X : Arr Int) (hX : X.shape = [N, D]) (pX : PMArr X) :
    Makes o i N D N X ∧ Makes o i N D D X := by
  obtain ⟨m, iv, f, hm, heq⟩ := covers_table o i
  rw [h, decide_eq_true_iff] at hm
  rw [makes_iff o i hX pX, makes_iff o i hX pX, made_canonical heq, made_canonical heq]
  exact ⟨made_rows m hm N D _, made_columns m hm N D _⟩

/-- **C134 is false for the other 24 models.** For each of them there is a binary matrix of four rows and four columns that no
number of latent dimensions makes. -/
theorem C134_wrong (o i : LOp) (h : coversAll o i = false) :
    ∃ X : Arr Int, X.shape = [4, 4] ∧ PMArr X ∧ ∀ L, ¬ Makes o i 4 4 L X := by
  obtain ⟨m, iv, f, hm, heq⟩ := covers_table o i
  rw [h, decide_eq_false_iff_not] at hm
  let X : Arr Int := ⟨[4, 4], fun idx => if hardCell (idx.getD 0 0) (idx.getD 1 0) = !iv then 1 else -1⟩
  have pX : PMArr X := by
    intro idx _
    show IsPM (if _ then 1 else -1)
    split
    · exact Or.inl rfl
    · exact Or.inr rfl
  refine ⟨X, rfl, pX, fun L hmk => ?_⟩
  rw [makes_iff o i rfl pX, made_canonical heq] at hmk
  refine hard_not_made m hm L ?_
  have e : (fun n d => if iv = true then ¬ X [n, d] = 1 else X [n, d] = 1) = fun n d => hardCell n d = true := by
    funext n d
    have : X [n, d] = if hardCell n d = !iv then 1 else -1 := rfl
    rw [this]
    cases iv <;> cases hardCell n d <;> simp
  rwa [e] at hmk

theorem inB_length : ∀ {shape idx : List Nat}, InB shape idx → idx.length = shape.length
  | [], [], _ => rfl
  | _ :: _, _ :: _, h => congrArg (· + 1) (inB_length h.2)

/-- **C134 (twelve models, any number of factors).** The same models make every binary array of any number `K ≥ 1` of dimensions from
`K` factors, with as many latent dimensions as it has cells. -/
theorem C134_every_array_partial (o i : LOp) (h : coversAll o i = true) (shape : List Nat) (hs : shape ≠ []) (X : Arr Int)
    (hX : X.shape = shape) (pX : PMArr X) : ∃ (factors : List (Arr Int)) (Y : Arr Int), Columns factors shape.prod ∧
      rowCounts factors = shape ∧ (∀ a ∈ factors, PMArr a) ∧ lom_generate_data factors (modelName o i) = .ok Y ∧ Y.shape = shape ∧
      ∀ idx, InB shape idx → Y idx = X idx := by
  classical
  obtain ⟨m, iv, f, hm, heq⟩ := covers_table o i
  rw [h, decide_eq_true_iff] at hm
  let ind : Nat → List Nat := fun l => (indices shape).getD l []
  let B : List Nat → Prop := fun idx => if iv then ¬ X idx = 1 else X idx = 1
  let bit : Nat → Nat → Nat → Prop := fun k n l => (ind l).getD k 0 = n ∧ B (ind l)
  let fac : Nat → Arr Int := fun k => ⟨[shape.getD k 0, shape.prod], fun j =>
    pm (if f then ¬ bit k (j.getD 0 0) (j.getD 1 0) else bit k (j.getD 0 0) (j.getD 1 0))⟩
  let factors : List (Arr Int) := (List.range shape.length).map fac
  have hlen : factors.length = shape.length := by simp [factors]
  have hget : ∀ (k : Nat) (hk : k < factors.length), factors[k] = fac k := by intro k hk; simp [factors]
  have hcol : Columns factors shape.prod := by
    intro a ha
    obtain ⟨k, -, rfl⟩ := List.mem_map.mp ha
    exact ⟨_, rfl⟩
  have hrow : rowCounts factors = shape := by
    unfold rowCounts
    refine List.ext_getElem (by simp [hlen]) fun k h1 h2 => ?_
    rw [List.getElem_map, hget]
    simp [fac, List.getElem?_eq_getElem h2]
  have pm1 : ∀ P : Prop, pm P = 1 ↔ P := fun P => by by_cases h : P <;> simp [pm, h]
  have hpos : 0 < factors.length := by rw [hlen]; exact List.length_pos_iff.mpr hs
  obtain ⟨Y, hY, sY, vY⟩ := C03_all_models_all_arities o i shape.prod factors (List.length_pos_iff.mp hpos) hcol
  rw [hrow] at sY vY
  refine ⟨factors, Y, hcol, hrow, ?_, hY, sY, fun idx hi => ?_⟩
  · intro a ha
    obtain ⟨k, -, rfl⟩ := List.mem_map.mp ha
    intro j _
    show IsPM (pm (if f = true then ¬ bit k (j.getD 0 0) (j.getD 1 0) else bit k (j.getD 0 0) (j.getD 1 0)))
    by_cases hp : (if f = true then ¬ bit k (j.getD 0 0) (j.getD 1 0) else bit k (j.getD 0 0) (j.getD 1 0))
    · rw [pm_true hp]; exact Or.inl rfl
    · rw [pm_false hp]; exact Or.inr rfl
  · rw [vY idx hi]
    have hbit : (fun (l : Fin shape.prod) (k : Fin factors.length) => if f = true then ¬ factors[k] [idx.getD k 0, l] = 1 else
        factors[k] [idx.getD k 0, l] = 1) = fun (l : Fin shape.prod) (k : Fin factors.length) => bit k (idx.getD k 0) l := by
      funext l k
      have e : (factors[k] [idx.getD k 0, l] = 1) ↔ if f = true then ¬ bit k (idx.getD k 0) l else bit k (idx.getD k 0) l := by
        rw [Fin.getElem_fin, hget k k.2]
        exact pm1 _
      rw [propext e]
      cases f <;> simp
    have key : lom m.outer m.inner (fun (l : Fin shape.prod) (k : Fin factors.length) => bit k (idx.getD k 0) l) ↔ B idx := by
      have hall : ∀ l : Fin shape.prod, (∀ k : Fin factors.length, bit k (idx.getD k 0) l) ↔ ind l = idx ∧ B idx := by
        intro l
        have hl : (l : Nat) < (indices shape).length := by rw [length_indices]; exact l.2
        have hin : InB shape (ind l) := by
          rw [← mem_indices]
          simp only [ind, List.getD_eq_getElem?_getD, List.getElem?_eq_getElem hl, Option.getD_some]
          exact List.getElem_mem hl
        constructor
        · intro hb
          have e : ind l = idx := by
            refine List.ext_getElem ((inB_length hin).trans (inB_length hi).symm) fun k h1 h2 => ?_
            have := (hb ⟨k, by rw [hlen, ← inB_length hi]; exact h2⟩).1
            simpa [List.getD_eq_getElem?_getD, List.getElem?_eq_getElem h1, List.getElem?_eq_getElem h2] using this
          exact ⟨e, e ▸ (hb ⟨0, hpos⟩).2⟩
        · rintro ⟨e, hB⟩ k
          exact ⟨by rw [e], by rw [e]; exact hB⟩
      obtain ⟨l0, hl0, e0⟩ := List.getElem_of_mem (mem_indices.mpr hi)
      have hl0' : l0 < shape.prod := by rwa [length_indices] at hl0
      have ei : ind l0 = idx := by
        simp only [ind, List.getD_eq_getElem?_getD, List.getElem?_eq_getElem hl0, Option.getD_some, e0]
      have uniq : ∀ l : Fin shape.prod, ind l = idx → l = ⟨l0, hl0'⟩ := by
        intro l e
        have hl : (l : Nat) < (indices shape).length := by rw [length_indices]; exact l.2
        refine Fin.ext ((List.Nodup.getElem_inj_iff (nodup_indices shape) (hi := hl) (hj := hl0)).mp ?_)
        rw [e0, ← e]
        simp only [ind, List.getD_eq_getElem?_getD, List.getElem?_eq_getElem hl, Option.getD_some]
      unfold lom
      rcases hm with rfl | rfl
      · constructor
        · rintro ⟨l, hl⟩; exact ((hall l).mp hl).2
        · exact fun hB => ⟨⟨l0, hl0'⟩, (hall _).mpr ⟨ei, hB⟩⟩
      · constructor
        · rintro ⟨l, hl, -⟩; exact ((hall l).mp hl).2
        · exact fun hB => ⟨⟨l0, hl0'⟩, (hall _).mpr ⟨ei, hB⟩, fun l hl => uniq l ((hall l).mp hl).1⟩
    have hlom := heq (Fin shape.prod) (Fin factors.length) fun l k => factors[k] [idx.getD k 0, l] = 1
    rw [hbit, propext key] at hlom
    rw [pm_congr hlom]
    rcases pX idx (by rw [hX]; exact hi) with e | e <;> cases iv <;> simp [B, e, pm]

/-- **C134 (how many).** The bounds are sharp: OR-AND makes the unit matrix of `N` rows with `N` or more latent dimensions and with
no fewer. -/
theorem C134_unit_matrix (N L : Nat) : Makes .OR .AND N N L ⟨[N, N], fun i => if i.getD 0 0 = i.getD 1 0 then 1 else -1⟩ ↔ N ≤ L := by
  have pX : PMArr ⟨[N, N], fun i => if i.getD 0 0 = i.getD 1 0 then 1 else -1⟩ := by
    intro idx _
    show IsPM (if _ then 1 else -1)
    split
    · exact Or.inl rfl
    · exact Or.inr rfl
  have cell : ∀ n d : Nat, ((⟨[N, N], fun i => if i.getD 0 0 = i.getD 1 0 then 1 else -1⟩ : Arr Int) [n, d] = 1) ↔ n = d := by
    intro n d
    show (if n = d then (1 : Int) else -1) = 1 ↔ n = d
    by_cases h : n = d <;> simp [h]
  rw [makes_iff .OR .AND rfl pX]
  simp only [Made, cell, lom, (inner_two _ _).1]
  constructor
  · rintro ⟨a, b, h⟩
    choose l hl using fun n : Fin N => (h n n.2 n n.2).mp rfl
    have inj : Function.Injective l := by
      intro n n' e
      refine Fin.ext ((h n n.2 n' n'.2).mpr ⟨l n, (hl n).1, ?_⟩)
      rw [e]; exact (hl n').2
    simpa using Fintype.card_le_of_injective l inj
  · intro hle
    refine ⟨fun n l => n = l, fun d l => d = l, fun n hn d hd => ⟨fun e => ⟨⟨n, by omega⟩, rfl, e.symm⟩, ?_⟩⟩
    rintro ⟨l, h1, h2⟩
    exact h1.trans h2.symm

/-- hypotheses of C134 met: twelve models are of the first kind, 24 of the second, and there are binary matrices -/
theorem C134_hypotheses_met :
    (([LOp.AND, .NAND, .OR, .NOR, .XOR, .NXOR].flatMap fun o => [LOp.AND, .NAND, .OR, .NOR, .XOR, .NXOR].filter (coversAll o)).length = 12) ∧
      PMArr (Arr.full [3, 2] (1 : Int)) ∧ (Arr.full [3, 2] (1 : Int)).shape = [3, 2] :=
  ⟨by decide, fun _ _ => Or.inl rfl, rfl⟩

end LFM
