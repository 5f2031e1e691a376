import Verif.Py
import Verif.Lemmas.Loops

/-! Arrays filled by loops. -/

namespace LFM

/-- `step` keeps the shape, writes `g idx` on the cells `K` and leaves the others alone -/
structure Overwrites {β : Type} (step : Arr β → Arr β) (K : List Nat → Prop)
    (g : List Nat → β) : Prop where
  shape : ∀ X, (step X).shape = X.shape
  on : ∀ X idx, K idx → (step X).get idx = g idx
  off : ∀ X idx, ¬ K idx → (step X).get idx = X.get idx

theorem Overwrites.congr {β : Type} {step : Arr β → Arr β} {K K' : List Nat → Prop}
    {g g' : List Nat → β} (h : Overwrites step K g) (hK : ∀ idx, K' idx ↔ K idx)
    (hg : ∀ idx, K idx → g' idx = g idx) : Overwrites step K' g' :=
  ⟨h.shape, fun X idx hi => (h.on X idx ((hK idx).1 hi)).trans (hg idx ((hK idx).1 hi)).symm,
    fun X idx hi => h.off X idx (fun hk => hi ((hK idx).2 hk))⟩

theorem overwrites_set {β : Type} (i : List Nat) (g : List Nat → β) :
    Overwrites (fun X => X.set i (g i)) (fun idx => idx = i) g :=
  ⟨fun _ => rfl, fun X idx h => by simp [Arr.set, h], fun X idx h => by simp [Arr.set, h]⟩

theorem overwrites_foldl {α β : Type} (xs : List α) (step : Arr β → α → Arr β)
    (K : α → List Nat → Prop) (g : List Nat → β)
    (h : ∀ a ∈ xs, Overwrites (fun X => step X a) (K a) g) :
    Overwrites (fun X => xs.foldl step X) (fun idx => ∃ a ∈ xs, K a idx) g := by
  induction xs with
  | nil => exact ⟨fun _ => rfl, fun X idx h => by simp at h, fun _ _ _ => rfl⟩
  | cons x xs ih =>
    have ih := ih fun a ha => h a (List.mem_cons_of_mem _ ha)
    have hx := h x List.mem_cons_self
    refine ⟨fun X => ?_, fun X idx hi => ?_, fun X idx hi => ?_⟩
    · exact (ih.shape _).trans (hx.shape X)
    · by_cases h1 : ∃ a ∈ xs, K a idx
      · exact ih.on _ idx h1
      · refine (ih.off _ idx h1).trans (hx.on X idx ?_)
        obtain ⟨a, ha, hk⟩ := hi
        rcases List.mem_cons.1 ha with rfl | ha
        · exact hk
        · exact absurd ⟨a, ha, hk⟩ h1
    · refine (ih.off _ idx fun ⟨a, ha, hk⟩ => hi ⟨a, List.mem_cons_of_mem _ ha, hk⟩).trans
        (hx.off X idx fun hk => hi ⟨x, List.mem_cons_self, hk⟩)

theorem overwrites1 {β : Type} (N : Nat) (f : Nat → β) :
    Overwrites (fun X => (List.range N).foldl (fun X n => X.set [n] (f n)) X)
      (fun idx => ∃ n ∈ List.range N, idx = [n]) (fun idx => f (idx.getD 0 0)) := by
  apply overwrites_foldl
  intro n _
  exact overwrites_set [n] (fun idx => f (idx.getD 0 0))

theorem overwrites2 {β : Type} (N D : Nat) (f : Nat → Nat → β) :
    Overwrites (fun X => (List.range N).foldl (fun X n =>
      (List.range D).foldl (fun X d => X.set [n, d] (f n d)) X) X)
      (fun idx => ∃ n ∈ List.range N, ∃ d ∈ List.range D, idx = [n, d])
      (fun idx => f (idx.getD 0 0) (idx.getD 1 0)) := by
  apply overwrites_foldl
  intro n _
  apply overwrites_foldl
  intro d _
  exact overwrites_set [n, d] (fun idx => f (idx.getD 0 0) (idx.getD 1 0))

theorem overwrites3 {β : Type} (N D M : Nat) (f : Nat → Nat → Nat → β) :
    Overwrites (fun X => (List.range N).foldl (fun X n => (List.range D).foldl (fun X d =>
      (List.range M).foldl (fun X m => X.set [n, d, m] (f n d m)) X) X) X)
      (fun idx => ∃ n ∈ List.range N, ∃ d ∈ List.range D, ∃ m ∈ List.range M, idx = [n, d, m])
      (fun idx => f (idx.getD 0 0) (idx.getD 1 0) (idx.getD 2 0)) := by
  apply overwrites_foldl
  intro n _
  apply overwrites_foldl
  intro d _
  apply overwrites_foldl
  intro m _
  exact overwrites_set [n, d, m] (fun idx => f (idx.getD 0 0) (idx.getD 1 0) (idx.getD 2 0))

/-- `step` keeps the shape, replaces the value `x` of a cell in `K` by `h idx x` and leaves the
others alone -/
structure Modifies {β : Type} (step : Arr β → Arr β) (K : List Nat → Prop)
    (h : List Nat → β → β) : Prop where
  shape : ∀ X, (step X).shape = X.shape
  on : ∀ X idx, K idx → (step X).get idx = h idx (X.get idx)
  off : ∀ X idx, ¬ K idx → (step X).get idx = X.get idx

theorem modifies_foldl {α β : Type} (xs : List α) (step : Arr β → α → Arr β)
    (K : α → List Nat → Prop) (h : List Nat → β → β)
    (hd : xs.Pairwise fun a b => ∀ idx, ¬ (K a idx ∧ K b idx))
    (hs : ∀ a ∈ xs, Modifies (fun X => step X a) (K a) h) :
    Modifies (fun X => xs.foldl step X) (fun idx => ∃ a ∈ xs, K a idx) h := by
  induction xs with
  | nil => exact ⟨fun _ => rfl, fun X idx h => by simp at h, fun _ _ _ => rfl⟩
  | cons x xs ih =>
    rw [List.pairwise_cons] at hd
    have ih := ih hd.2 fun a ha => hs a (List.mem_cons_of_mem _ ha)
    have hx := hs x List.mem_cons_self
    refine ⟨fun X => ?_, fun X idx hi => ?_, fun X idx hi => ?_⟩
    · exact (ih.shape _).trans (hx.shape X)
    · by_cases h1 : ∃ a ∈ xs, K a idx
      · have h2 : ¬ K x idx := by
          obtain ⟨a, ha, hk⟩ := h1
          exact fun hkx => hd.1 a ha idx ⟨hkx, hk⟩
        have := ih.on (step X x) idx h1
        rw [hx.off X idx h2] at this
        exact this
      · refine (ih.off _ idx h1).trans (hx.on X idx ?_)
        obtain ⟨a, ha, hk⟩ := hi
        rcases List.mem_cons.1 ha with rfl | ha
        · exact hk
        · exact absurd ⟨a, ha, hk⟩ h1
    · refine (ih.off _ idx fun ⟨a, ha, hk⟩ => hi ⟨a, List.mem_cons_of_mem _ ha, hk⟩).trans
        (hx.off X idx fun hk => hi ⟨x, List.mem_cons_self, hk⟩)

/-- one fill loop -/
theorem fill1 {β : Type} (N : Nat) (f : Nat → β) (X : Arr β) :
    let Y := (List.range N).foldl (fun X n => X.set [n] (f n)) X
    Y.shape = X.shape ∧ ∀ n, n < N → Y [n] = f n :=
  ⟨(overwrites1 N f).shape X, fun n hn =>
    (overwrites1 N f).on X [n] ⟨n, by simpa using hn, rfl⟩⟩

/-- two nested fill loops -/
theorem fill2 {β : Type} (N D : Nat) (f : Nat → Nat → β) (X : Arr β) :
    let Y := (List.range N).foldl (fun X n =>
      (List.range D).foldl (fun X d => X.set [n, d] (f n d)) X) X
    Y.shape = X.shape ∧ ∀ n d, n < N → d < D → Y [n, d] = f n d :=
  ⟨(overwrites2 N D f).shape X, fun n d hn hd =>
    (overwrites2 N D f).on X [n, d] ⟨n, by simpa using hn, d, by simpa using hd, rfl⟩⟩

/-- three nested fill loops -/
theorem fill3 {β : Type} (N D M : Nat) (f : Nat → Nat → Nat → β) (X : Arr β) :
    let Y := (List.range N).foldl (fun X n => (List.range D).foldl (fun X d =>
      (List.range M).foldl (fun X m => X.set [n, d, m] (f n d m)) X) X) X
    Y.shape = X.shape ∧ ∀ n d m, n < N → d < D → m < M → Y [n, d, m] = f n d m :=
  ⟨(overwrites3 N D M f).shape X, fun n d m hn hd hm =>
    (overwrites3 N D M f).on X [n, d, m]
      ⟨n, by simpa using hn, d, by simpa using hd, m, by simpa using hm, rfl⟩⟩

end LFM
