import Mathlib.Tactic.Common
import Mathlib.Tactic.FinCases
import Mathlib.Data.Fintype.Basic
import Verif.Model.Clans
import Verif.Spec.Clans

/-!
# Property C82: `canonical_loms` lists one representative of every family or clan of models
-/

namespace LFM

open Spec

/-! ## Families and clans are equivalence classes -/

theorem flipped_flipped {ι κ : Type} (f g : Bool) (x : ι → κ → Prop) : flipped f (flipped g x) = flipped (f != g) x := by
  funext l k
  cases f <;> cases g <;> simp [flipped]

theorem Spec.Matches.symm {a b : LOp × LOp} {f n : Bool} (h : Matches a b f n) : Matches b a f n := by
  intro ι κ x
  have := h ι κ (flipped f x)
  rw [flipped_flipped] at this
  have e : flipped (f != f) x = x := by cases f <;> rfl
  rw [e] at this
  cases n
  · simpa using this.symm
  · simp only [if_true] at this ⊢
    rw [this, not_not]

theorem Spec.Matches.trans {a b c : LOp × LOp} {f g n p : Bool} (h1 : Matches a b f n) (h2 : Matches b c g p) :
    Matches a c (f != g) (n != p) := by
  intro ι κ x
  have e1 := h1 ι κ x
  have e2 := h2 ι κ (flipped f x)
  rw [flipped_flipped] at e2
  have e : (g != f) = (f != g) := by cases f <;> cases g <;> rfl
  rw [e] at e2
  rw [e1]
  cases n <;> cases p <;> simp_all

theorem Spec.SameFamily.of_common {a b c : LOp × LOp} (h1 : SameFamily c a) (h2 : SameFamily c b) : SameFamily a b := by
  obtain ⟨f, h1⟩ := h1
  obtain ⟨g, h2⟩ := h2
  exact ⟨_, h1.symm.trans h2⟩

theorem Spec.SameClan.of_common {a b c : LOp × LOp} (h1 : SameClan c a) (h2 : SameClan c b) : SameClan a b := by
  obtain ⟨f, n, h1⟩ := h1
  obtain ⟨g, p, h2⟩ := h2
  exact ⟨_, _, h1.symm.trans h2⟩

/-! ## Evaluation on small factors, to tell models apart -/

/-- value of an operator on three bits -/
def LOp.eval3 (o : LOp) (a b c : Bool) : Bool :=
  match o with
  | .AND => a && b && c
  | .NAND => !(a && b && c)
  | .OR => a || b || c
  | .NOR => !(a || b || c)
  | .XOR => (a && !b && !c) || (!a && b && !c) || (!a && !b && c)
  | .NXOR => !((a && !b && !c) || (!a && b && !c) || (!a && !b && c))

theorem LOp.eval3_iff (o : LOp) (p : Fin 3 → Bool) : LOp.eval3 o (p 0) (p 1) (p 2) = true ↔ o.Holds fun k => p k = true := by
  have hu : (∃! k : Fin 3, p k = true) ↔ ((p 0 = true ∧ p 1 = false ∧ p 2 = false) ∨
      (p 0 = false ∧ p 1 = true ∧ p 2 = false) ∨ (p 0 = false ∧ p 1 = false ∧ p 2 = true)) := by
    constructor
    · rintro ⟨k, hk, hu⟩
      have h0 := hu 0
      have h1 := hu 1
      have h2 := hu 2
      fin_cases k <;> simp at hk h0 h1 h2 <;> simp [hk, h0, h1, h2]
    · rintro (⟨h0, h1, h2⟩ | ⟨h0, h1, h2⟩ | ⟨h0, h1, h2⟩)
      · exact ⟨0, h0, fun k hk => by fin_cases k <;> simp_all⟩
      · exact ⟨1, h1, fun k hk => by fin_cases k <;> simp_all⟩
      · exact ⟨2, h2, fun k hk => by fin_cases k <;> simp_all⟩
  have hall : (∀ k : Fin 3, p k = true) ↔ p 0 = true ∧ p 1 = true ∧ p 2 = true := by
    rw [Fin.forall_fin_succ, Fin.forall_fin_succ, Fin.forall_fin_succ]; simp
  have hex : (∃ k : Fin 3, p k = true) ↔ p 0 = true ∨ p 1 = true ∨ p 2 = true := by
    rw [Fin.exists_fin_succ, Fin.exists_fin_succ, Fin.exists_fin_succ]; simp
  cases o <;> simp only [LOp.Holds, hu, hall, hex, LOp.eval3] <;>
    (cases p 0 <;> cases p 1 <;> cases p 2 <;> decide)

/-- value of a model on three dimensions and three factors -/
def evalLom (m : LOp × LOp) (x : Fin 3 → Fin 3 → Bool) : Bool :=
  LOp.eval3 m.1 (LOp.eval3 m.2 (x 0 0) (x 0 1) (x 0 2)) (LOp.eval3 m.2 (x 1 0) (x 1 1) (x 1 2))
    (LOp.eval3 m.2 (x 2 0) (x 2 1) (x 2 2))

theorem evalLom_iff (m : LOp × LOp) (x : Fin 3 → Fin 3 → Bool) :
    evalLom m x = true ↔ lom m.1 m.2 fun l k => x l k = true := by
  have h := LOp.eval3_iff m.1 fun l => LOp.eval3 m.2 (x l 0) (x l 1) (x l 2)
  rw [evalLom]
  refine h.trans ?_
  rw [lom]
  have : (fun l : Fin 3 => LOp.eval3 m.2 (x l 0) (x l 1) (x l 2) = true) = fun l => m.2.Holds fun k => x l k = true := by
    funext l
    exact propext (LOp.eval3_iff m.2 (x l))
  rw [this]

theorem Spec.Matches.eval {a b : LOp × LOp} {f n : Bool} (h : Matches a b f n) (x : Fin 3 → Fin 3 → Bool) :
    evalLom a x = (n != evalLom b fun l k => f != x l k) := by
  have e := h (Fin 3) (Fin 3) fun l k => x l k = true
  rw [← evalLom_iff a] at e
  have hf : (flipped f fun l k => x l k = true) = fun l k => (f != x l k) = true := by
    funext l k
    cases f <;> cases h : x l k <;> simp [flipped, h]
  rw [hf, ← evalLom_iff b] at e
  cases n <;> cases h1 : evalLom a x <;> cases h2 : evalLom b fun l k => f != x l k <;> simp_all

/-- factors that tell all models of different families apart: three dimensions of three factors each -/
def witnesses : List (Fin 3 → Fin 3 → Bool) :=
  [![![false, false, false], ![false, false, false], ![false, false, false]],
   ![![false, false, true], ![false, true, true], ![true, true, true]],
   ![![false, false, true], ![false, false, true], ![false, true, true]],
   ![![false, true, true], ![true, true, true], ![true, true, true]],
   ![![true, true, true], ![true, true, true], ![true, true, true]],
   ![![false, false, true], ![false, false, true], ![false, false, true]],
   ![![false, false, false], ![false, false, false], ![false, false, true]]]

/-- the witnesses do not tell `a` from `b` with factors and data inverted as given -/
def agree (a b : LOp × LOp) (f n : Bool) : Bool :=
  witnesses.all fun x => evalLom a x == (n != evalLom b fun l k => f != x l k)

theorem Spec.Matches.agree {a b : LOp × LOp} {f n : Bool} (h : Matches a b f n) : agree a b f n = true := by
  rw [LFM.agree, List.all_eq_true]
  intro x _
  rw [h.eval x]
  simp

/-! ## The lists -/

/-- the representatives, as pairs of operators -/
def reps (canonical : Bool) : List (LOp × LOp) :=
  if canonical then [(.AND, .AND), (.AND, .NAND), (.XOR, .AND), (.XOR, .NAND), (.AND, .XOR), (.AND, .NXOR), (.XOR, .XOR),
    (.XOR, .NXOR)]
  else [(.OR, .AND), (.OR, .NAND), (.OR, .XOR), (.NAND, .XOR), (.XOR, .NAND), (.XOR, .AND), (.XOR, .NXOR), (.XOR, .XOR)]

/-- the representatives of families that are added to those of the clans -/
def moreReps (canonical : Bool) : List (LOp × LOp) :=
  if canonical then [(.OR, .NAND), (.OR, .AND), (.NXOR, .AND), (.NXOR, .NAND), (.OR, .NXOR), (.OR, .XOR), (.NXOR, .XOR),
    (.NXOR, .NXOR)]
  else [(.NOR, .AND), (.NOR, .NAND), (.NOR, .XOR), (.AND, .XOR), (.NXOR, .NAND), (.NXOR, .AND), (.NXOR, .NXOR),
    (.NXOR, .XOR)]

theorem families_apart (c : Bool) : ∀ a ∈ reps c ++ moreReps c, ∀ b ∈ reps c ++ moreReps c, ∀ f,
    agree a b f false = true → a = b := by
  cases c <;> decide

theorem clans_apart (c : Bool) : ∀ a ∈ reps c, ∀ b ∈ reps c, ∀ f n, agree a b f n = true → a = b := by
  cases c <;> decide

/-- the representative of the family of a model, and whether its factors have to be inverted -/
def famRep (canonical : Bool) : LOp → LOp → (LOp × LOp) × Bool
  | .OR, .AND => ((.OR, .AND), false)
  | .NAND, .NAND => ((.OR, .AND), false)
  | .OR, .NOR => ((.OR, .AND), true)
  | .NAND, .OR => ((.OR, .AND), true)
  | .NOR, .AND => (if canonical then (.AND, .NAND) else (.NOR, .AND), false)
  | .AND, .NAND => (if canonical then (.AND, .NAND) else (.NOR, .AND), false)
  | .NOR, .NOR => (if canonical then (.AND, .NAND) else (.NOR, .AND), true)
  | .AND, .OR => (if canonical then (.AND, .NAND) else (.NOR, .AND), true)
  | .OR, .NAND => ((.OR, .NAND), false)
  | .NAND, .AND => ((.OR, .NAND), false)
  | .OR, .OR => ((.OR, .NAND), true)
  | .NAND, .NOR => ((.OR, .NAND), true)
  | .NOR, .NAND => (if canonical then (.AND, .AND) else (.NOR, .NAND), false)
  | .AND, .AND => (if canonical then (.AND, .AND) else (.NOR, .NAND), false)
  | .NOR, .OR => (if canonical then (.AND, .AND) else (.NOR, .NAND), true)
  | .AND, .NOR => (if canonical then (.AND, .AND) else (.NOR, .NAND), true)
  | .OR, .XOR => ((.OR, .XOR), false)
  | .NAND, .NXOR => ((.OR, .XOR), false)
  | .NAND, .XOR => (if canonical then (.OR, .NXOR) else (.NAND, .XOR), false)
  | .OR, .NXOR => (if canonical then (.OR, .NXOR) else (.NAND, .XOR), false)
  | .NOR, .XOR => (if canonical then (.AND, .NXOR) else (.NOR, .XOR), false)
  | .AND, .NXOR => (if canonical then (.AND, .NXOR) else (.NOR, .XOR), false)
  | .AND, .XOR => ((.AND, .XOR), false)
  | .NOR, .NXOR => ((.AND, .XOR), false)
  | .XOR, .AND => ((.XOR, .AND), false)
  | .XOR, .NOR => ((.XOR, .AND), true)
  | .XOR, .NAND => ((.XOR, .NAND), false)
  | .XOR, .OR => ((.XOR, .NAND), true)
  | .NXOR, .AND => ((.NXOR, .AND), false)
  | .NXOR, .NOR => ((.NXOR, .AND), true)
  | .NXOR, .NAND => ((.NXOR, .NAND), false)
  | .NXOR, .OR => ((.NXOR, .NAND), true)
  | .XOR, .XOR => ((.XOR, .XOR), false)
  | .XOR, .NXOR => ((.XOR, .NXOR), false)
  | .NXOR, .XOR => ((.NXOR, .XOR), false)
  | .NXOR, .NXOR => ((.NXOR, .NXOR), false)

theorem famRep_mem (c : Bool) (o i : LOp) : (famRep c o i).1 ∈ reps c ++ moreReps c := by
  cases c <;> cases o <;> cases i <;> decide

theorem famRep_matches (c : Bool) (o i : LOp) : Matches (o, i) (famRep c o i).1 (famRep c o i).2 false := by
  intro ι κ x
  cases c <;> cases o <;> cases i <;>
    simp [famRep, lom, LOp.Holds, flipped]

/-- the representative of the clan of a representative of a family -/
theorem clan_of_family (c : Bool) : ∀ a ∈ reps c ++ moreReps c, ∃ b ∈ reps c, ∃ f n, Matches a b f n := by
  intro a ha
  rcases List.mem_append.mp ha with h | h
  · refine ⟨a, h, false, false, fun ι κ x => ?_⟩
    have : flipped false x = x := rfl
    simp [this]
  · cases c
    · simp only [moreReps, Bool.false_eq_true, if_false, List.mem_cons, List.not_mem_nil, or_false] at h
      rcases h with rfl | rfl | rfl | rfl | rfl | rfl | rfl | rfl
      · exact ⟨(.OR, .AND), by decide, false, true, fun ι κ x => by simp [lom, LOp.Holds, flipped]⟩
      · exact ⟨(.OR, .NAND), by decide, false, true, fun ι κ x => by simp [lom, LOp.Holds, flipped]⟩
      · exact ⟨(.OR, .XOR), by decide, false, true, fun ι κ x => by simp [lom, LOp.Holds, flipped]⟩
      · exact ⟨(.NAND, .XOR), by decide, false, true, fun ι κ x => by simp [lom, LOp.Holds, flipped]⟩
      · exact ⟨(.XOR, .NAND), by decide, false, true, fun ι κ x => by simp [lom, LOp.Holds, flipped]⟩
      · exact ⟨(.XOR, .AND), by decide, false, true, fun ι κ x => by simp [lom, LOp.Holds, flipped]⟩
      · exact ⟨(.XOR, .NXOR), by decide, false, true, fun ι κ x => by simp [lom, LOp.Holds, flipped]⟩
      · exact ⟨(.XOR, .XOR), by decide, false, true, fun ι κ x => by simp [lom, LOp.Holds, flipped]⟩
    · simp only [moreReps, if_true, List.mem_cons, List.not_mem_nil, or_false] at h
      rcases h with rfl | rfl | rfl | rfl | rfl | rfl | rfl | rfl
      · exact ⟨(.AND, .AND), by decide, false, true, fun ι κ x => by simp [lom, LOp.Holds, flipped]⟩
      · exact ⟨(.AND, .NAND), by decide, false, true, fun ι κ x => by simp [lom, LOp.Holds, flipped]⟩
      · exact ⟨(.XOR, .AND), by decide, false, true, fun ι κ x => by simp [lom, LOp.Holds, flipped]⟩
      · exact ⟨(.XOR, .NAND), by decide, false, true, fun ι κ x => by simp [lom, LOp.Holds, flipped]⟩
      · exact ⟨(.AND, .XOR), by decide, false, true, fun ι κ x => by simp [lom, LOp.Holds, flipped]⟩
      · exact ⟨(.AND, .NXOR), by decide, false, true, fun ι κ x => by simp [lom, LOp.Holds, flipped]⟩
      · exact ⟨(.XOR, .XOR), by decide, false, true, fun ι κ x => by simp [lom, LOp.Holds, flipped]⟩
      · exact ⟨(.XOR, .NXOR), by decide, false, true, fun ι κ x => by simp [lom, LOp.Holds, flipped]⟩

/-- **C82** (families): in both modes, `canonical_loms('families')` lists the names of sixteen models such that each of
the 36 models is, up to inversion of all factors, exactly one of them. -/
theorem C82_families (mode : String) (h : mode = "implemented" ∨ mode = "canonical") :
    ∃ ms : List (LOp × LOp), canonical_loms "families" mode = .ok (ms.map fun m => modelName m.1 m.2) ∧ ms.Nodup ∧
      ms.length = 16 ∧ ∀ m, ∃! r, r ∈ ms ∧ SameFamily m r := by
  obtain ⟨c, hc, hl⟩ : ∃ c : Bool, canonical_loms "families" mode =
      .ok ((reps c ++ moreReps c).map fun m => modelName m.1 m.2) ∧ True := by
    rcases h with rfl | rfl
    · exact ⟨false, rfl, trivial⟩
    · exact ⟨true, rfl, trivial⟩
  refine ⟨reps c ++ moreReps c, hc, by cases c <;> decide, by cases c <;> decide, ?_⟩
  rintro ⟨o, i⟩
  refine ⟨(famRep c o i).1, ⟨famRep_mem c o i, _, famRep_matches c o i⟩, ?_⟩
  rintro r ⟨hr, hf⟩
  obtain ⟨f, hm⟩ := hf.of_common ⟨_, famRep_matches c o i⟩
  exact families_apart c _ hr _ (famRep_mem c o i) f hm.agree

/-- **C82** (clans): in both modes, `canonical_loms('clans')` lists the names of eight models such that each of
the 36 models is, up to inversion of all factors and of the data, exactly one of them. -/
theorem C82_clans (mode : String) (h : mode = "implemented" ∨ mode = "canonical") :
    ∃ ms : List (LOp × LOp), canonical_loms "clans" mode = .ok (ms.map fun m => modelName m.1 m.2) ∧ ms.Nodup ∧
      ms.length = 8 ∧ ∀ m, ∃! r, r ∈ ms ∧ SameClan m r := by
  obtain ⟨c, hc, hl⟩ : ∃ c : Bool, canonical_loms "clans" mode =
      .ok ((reps c).map fun m => modelName m.1 m.2) ∧ True := by
    rcases h with rfl | rfl
    · exact ⟨false, rfl, trivial⟩
    · exact ⟨true, rfl, trivial⟩
  refine ⟨reps c, hc, by cases c <;> decide, by cases c <;> decide, ?_⟩
  rintro ⟨o, i⟩
  obtain ⟨b, hb, f, n, hm⟩ := clan_of_family c _ (famRep_mem c o i)
  have hb' : SameClan (o, i) b := ⟨_, _, (famRep_matches c o i).trans hm⟩
  refine ⟨b, ⟨hb, hb'⟩, ?_⟩
  rintro r ⟨hr, hf⟩
  obtain ⟨f, n, hm⟩ := hf.of_common hb'
  exact clans_apart c _ hr _ hb f n hm.agree

/-- **C82**: anything else raises ValueError -/
theorem C82_rejects (level mode : String) (h : (level ≠ "clans" ∧ level ≠ "families") ∨
    (mode ≠ "implemented" ∧ mode ≠ "canonical")) : canonical_loms level mode = .error .valueError := by
  rw [canonical_loms]
  by_cases h1 : mode = "implemented"
  · obtain ⟨h2, h3⟩ := h.resolve_right fun h => h.1 h1
    simp [h1, h2, h3, bind, Except.bind, pure, Except.pure, throw, throwThe, MonadExceptOf.throw]
  · by_cases h4 : mode = "canonical"
    · obtain ⟨h2, h3⟩ := h.resolve_right fun h => h.2 h4
      simp [h4, h2, h3, bind, Except.bind, pure, Except.pure, throw, throwThe, MonadExceptOf.throw]
    · simp [h1, h4, bind, Except.bind, throw, throwThe, MonadExceptOf.throw]

/-- **C82**: with 'implemented', the representatives of the clans are the models that support inference -/
theorem C82_implemented : ∃ ms, canonical_loms "clans" "implemented" = .ok ms ∧ ∀ m, m ∈ ms ↔ m ∈ implemented_loms := by
  refine ⟨_, rfl, ?_⟩
  intro m
  simp only [implemented_loms, List.mem_cons, List.not_mem_nil, or_false]
  tauto

/-- the two classifications differ: inverting the data leaves the family, not the clan -/
example : SameClan (.OR, .AND) (.NOR, .AND) ∧ ¬ SameFamily (.OR, .AND) (.NOR, .AND) := by
  refine ⟨⟨false, true, fun ι κ x => by simp [lom, LOp.Holds, flipped]⟩, ?_⟩
  rintro ⟨f, h⟩
  have := families_apart false (.OR, .AND) (by decide) (.NOR, .AND) (by decide) f h.agree
  cases this

end LFM
