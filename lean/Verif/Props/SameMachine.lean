import Verif.Props.Clans
import Verif.Props.Canonise
import Verif.Lemmas.AssembleLater

/-!
# C122: models that say the same up to inversion of data and factors give the same machine
-/

namespace LFM

open Spec

/-- Specification: data with all observed values inverted (missing ones stay missing) -/
def Spec.invertIf (neg : Bool) (X : Arr Int) : Arr Int := ⟨X.shape, fun i => if neg then -(X i) else X i⟩

theorem canonical_matches (o i : LOp) : ∃ (m : Lom8) (d f : Bool), canonical_form (modelName o i) = .ok (m.name, d, f) ∧
    Matches (o, i) (m.outer, m.inner) f d := by
  obtain ⟨m, d, f, h, h'⟩ := canonical_table o i
  exact ⟨m, d, f, h, fun ι κ x => h' ι κ x⟩

theorem Spec.Lom8.mem_reps (m : Lom8) : (m.outer, m.inner) ∈ reps false := by cases m <;> decide

theorem reps_not_self_inverse : ∀ a ∈ reps false, ∀ f, agree a a f true = false := by decide

theorem Spec.Lom8.pair_inj {m m' : Lom8} (h : (m.outer, m.inner) = (m'.outer, m'.inner)) : m = m' := by
  revert h; cases m <;> cases m' <;> decide

theorem Spec.Lom8.name_inj {m m' : Lom8} (h : m.name = m'.name) : m = m' := by
  revert h; cases m <;> cases m' <;> decide

/-- models that match have one canonical model, and the data are inverted for exactly one of them if they match with inverted
data -/
theorem Spec.Matches.canonical {o i o' i' : LOp} {flip neg : Bool} (h : Matches (o, i) (o', i') flip neg) :
    ∃ (m : Lom8) (d f f' : Bool), canonical_form (modelName o i) = .ok (m.name, d, f) ∧
      canonical_form (modelName o' i') = .ok (m.name, d != neg, f') := by
  obtain ⟨m, d, f, h1, h2⟩ := canonical_matches o i
  obtain ⟨m', d', f', h1', h2'⟩ := canonical_matches o' i'
  have key := (h2.symm.trans h).trans h2'
  obtain rfl : m = m' := Lom8.pair_inj (clans_apart false _ m.mem_reps _ m'.mem_reps _ _ key.agree)
  have hn : ((d != neg) != d') = false := by
    cases hx : ((d != neg) != d') with
    | false => rfl
    | true =>
      rw [hx] at key
      exact absurd key.agree (by rw [reps_not_self_inverse _ m.mem_reps]; decide)
  refine ⟨m, d, f, f', h1, ?_⟩
  rw [h1']
  cases d <;> cases neg <;> cases d' <;> simp_all

theorem addMatrix_setVal (s : Workshop) (X Y : Arr Int) (fixed : Bool) (h : Y.shape = X.shape) :
    (s.addMatrix X fixed).setVal s.next Y = s.addMatrix Y fixed := by
  simp only [Workshop.addMatrix, Workshop.newMatrix, Workshop.setVal, World.setVal]
  congr 3
  funext j
  by_cases hj : j = s.next
  · simp [upd, hj, h]
  · simp [upd, hj]

/-- what `add_layer` makes of new data -/
theorem addLayer_new (s : Workshop) (X : Arr Int) (hX : ∀ idx, IsData (X idx)) (fixed : Bool) (o i : LOp) (L : Nat)
    (init : Nat → List Nat → Int) {m : Lom8} {d f : Bool} (hc : canonical_form (modelName o i) = .ok (m.name, d, f)) :
    (s.addMatrix X fixed).addLayer (some s.next) none L (modelName o i) init =
      .ok ((s.addMatrix (invertIf d X) fixed).attach s.next X.shape L m.name init) := by
  have hv : ((s.addMatrix X fixed).m.world.mat s.next).val = X := by
    simp [Workshop.addMatrix, Workshop.newMatrix, upd]
  have hm : ¬ (m.name = "MAX-AND" ∨ m.name = "OR-AND-IBP" ∨ m.name = "qL-AND") := by cases m <;> decide
  have hw : X.map (fun x => wrap8 (-x)) = invertIf true X := by
    simp only [Arr.map, invertIf, if_true]
    congr 1
    funext idx
    rcases hX idx with h | h | h <;> rw [h] <;> decide
  cases d
  · simp only [Workshop.addLayer, canonise_model, hc, Option.map_some, hv, Bool.false_eq_true, if_false, hm]
    rw [addMatrix_setVal _ _ _ _ rfl]
    rfl
  · simp only [Workshop.addLayer, canonise_model, hc, Option.map_some, hv, if_true, hm, if_false, hw]
    rw [addMatrix_setVal s X (invertIf true X) fixed rfl]

/-- **C122**: if two models say the same up to inversion of all factors (`flip`) and of the data (`neg`), then a machine to
which data and a layer of the first model are added is the same as one to which the data, inverted if `neg`, and a layer of the
second model are added: everything that is done with it afterwards has the same result -/
theorem C122_same (s : Workshop) (X : Arr Int) (hX : ∀ idx, IsData (X idx)) (fixed : Bool) (L : Nat)
    (init : Nat → List Nat → Int) (o i o' i' : LOp) (flip neg : Bool) (h : Matches (o, i) (o', i') flip neg) :
    ∃ s', (s.addMatrix X fixed).addLayer (some s.next) none L (modelName o i) init = .ok s' ∧
      (s.addMatrix (invertIf neg X) fixed).addLayer (some s.next) none L (modelName o' i') init = .ok s' := by
  obtain ⟨m, d, f, f', h1, h2⟩ := h.canonical
  refine ⟨_, addLayer_new s X hX fixed o i L init h1, ?_⟩
  rw [addLayer_new s (invertIf neg X) ?_ fixed o' i' L init h2]
  · have : invertIf (d != neg) (invertIf neg X) = invertIf d X := by
      simp only [invertIf]
      cases d <;> cases neg <;> simp
    rw [this]
    rfl
  · intro idx
    have := hX idx
    simp only [invertIf, IsData] at this ⊢
    split <;> omega

/-- **C122**, the converse: for no other models or data the machines are the same -/
theorem C122_only (s : Workshop) (X Y : Arr Int) (hX : ∀ idx, IsData (X idx)) (hY : ∀ idx, IsData (Y idx)) (fixed : Bool)
    (L : Nat) (init : Nat → List Nat → Int) (o i o' i' : LOp)
    (h : (s.addMatrix X fixed).addLayer (some s.next) none L (modelName o i) init =
      (s.addMatrix Y fixed).addLayer (some s.next) none L (modelName o' i') init) :
    ∃ flip neg, Matches (o, i) (o', i') flip neg ∧ Y = invertIf neg X := by
  obtain ⟨m, d, f, h1, h2⟩ := canonical_matches o i
  obtain ⟨m', d', f', h1', h2'⟩ := canonical_matches o' i'
  rw [addLayer_new s X hX fixed o i L init h1, addLayer_new s Y hY fixed o' i' L init h1'] at h
  have h := Except.ok.inj h
  have hl := congrArg (fun w : Workshop => w.m.layers) h
  have hd := congrArg (fun w : Workshop => (w.m.world.mat s.next).val) h
  have spec := fun (Z : Arr Int) shape => Workshop.addFactors_spec (s.addMatrix Z fixed).m.layers.length L init shape 0 (s.addMatrix Z fixed)
  simp only [Workshop.attach, (spec _ _).2.1] at hl
  have hm : m = m' := by
    have := (List.append_inj' hl rfl).2
    simp only [List.cons.injEq, LayerInfo.mk.injEq] at this
    exact Lom8.name_inj this.1.2.1
  have hval : ∀ (Z : Arr Int) shape model, (((s.addMatrix Z fixed).attach s.next shape L model init).m.world.mat s.next).val = Z := by
    intro Z shape model
    show ((Workshop.addFactors _ _ _ _ _ _).m.world.mat s.next).val = Z
    rw [((spec Z shape).2.2.2.2.2.2.2.1 s.next (.inl (Nat.lt_succ_self _))).1]
    simp [Workshop.addMatrix, Workshop.newMatrix, upd]
  simp only [hval] at hd
  subst hm
  refine ⟨f != f', d != d', h2.trans h2'.symm, ?_⟩
  have e : invertIf d' (invertIf d' Y) = Y := by
    obtain ⟨sh, g⟩ := Y
    simp only [invertIf]
    cases d' <;> simp
  rw [← e, ← hd]
  simp only [invertIf]
  cases d <;> cases d' <;> simp

/-- **C122**, inference: whatever settings and draws, the results of inference are the same -/
theorem C122_inference (s : Workshop) (X : Arr Int) (hX : ∀ idx, IsData (X idx)) (fixed : Bool) (L : Nat)
    (init : Nat → List Nat → Int) (o i o' i' : LOp) (flip neg : Bool) (h : Matches (o, i) (o', i') flip neg)
    (S cw : Nat) (eps : ℝ) (bmin : Nat) (bmax : Int) (ps fx : Nat) (dr : Draws) :
    ((s.addMatrix X fixed).addLayer (some s.next) none L (modelName o i) init).bind
        (fun s' => s'.infer S cw eps bmin bmax ps fx dr) =
      ((s.addMatrix (invertIf neg X) fixed).addLayer (some s.next) none L (modelName o' i') init).bind
        fun s' => s'.infer S cw eps bmin bmax ps fx dr := by
  obtain ⟨s', h1, h2⟩ := C122_same s X hX fixed L init o i o' i' flip neg h
  rw [h1, h2]

/-- **C122**, for example: AND-OR is OR-AND with inverted factors and data (De Morgan), every model is the one with the
complementary outer operator with inverted data -/
theorem C122_met : Matches (.AND, .OR) (.OR, .AND) true true ∧ Matches (.OR, .NOR) (.OR, .AND) true false ∧
    (∀ i, Matches (.AND, i) (.NAND, i) false true ∧ Matches (.OR, i) (.NOR, i) false true ∧ Matches (.XOR, i) (.NXOR, i) false true) ∧
    ¬ ∃ flip neg, Matches (.OR, .AND) (.XOR, .AND) flip neg := by
  refine ⟨fun ι κ x => by simp [lom, LOp.Holds, flipped], fun ι κ x => by simp [lom, LOp.Holds, flipped], fun i =>
    ⟨fun ι κ x => ?_, fun ι κ x => ?_, fun ι κ x => ?_⟩, ?_⟩
  · have : flipped false x = x := rfl
    simp [lom, LOp.Holds, this]
  · have : flipped false x = x := rfl
    simp [lom, LOp.Holds, this]
  · have : flipped false x = x := rfl
    simp [lom, LOp.Holds, this]
  · rintro ⟨f, n, h⟩
    exact absurd (clans_apart false _ (by decide) _ (by decide) _ _ h.agree) (by decide)

end LFM
