import Verif.Model.Frames
import Verif.Spec.Logic

/-!
# C121: intersecting two data frames
-/

namespace LFM

open Spec

/-- the entry of a frame in the (first) row labelled `r` and the (first) column labelled `c` -/
def Spec.entry {α : Type} (A : Frame α) (r c : Nat) : Option α :=
  (A.rows.find? fun row => decide (row.1 = r)).bind fun row => row.2[A.columns.idxOf c]?

/-- no label occurs twice, rows are as long as there are columns -/
structure Spec.Labelled {α : Type} (A : Frame α) : Prop where
  index : A.index.Nodup
  columns : A.columns.Nodup
  width : ∀ row ∈ A.rows, row.2.length = A.columns.length

variable {α : Type}

theorem find_row {rows : List (Nat × List α)} (h : (rows.map (·.1)).Nodup) (r : Nat) (x : Nat × List α) :
    (rows.find? fun row => decide (row.1 = r)) = some x ↔ x ∈ rows ∧ x.1 = r := by
  induction rows with
  | nil => simp
  | cons a rows ih =>
    rw [List.map_cons, List.nodup_cons] at h
    rw [List.find?_cons]
    by_cases ha : a.1 = r
    · simp only [ha, decide_true]
      constructor
      · intro hx
        obtain rfl : a = x := by simpa using hx
        exact ⟨by simp, ha⟩
      · rintro ⟨hx, hr⟩
        rcases List.mem_cons.1 hx with rfl | hx
        · rfl
        · exact absurd (List.mem_map.2 ⟨x, hx, hr.trans ha.symm⟩) h.1
    · simp only [ha, decide_false]
      rw [ih h.2]
      constructor
      · rintro ⟨hx, hr⟩
        exact ⟨List.mem_cons_of_mem _ hx, hr⟩
      · rintro ⟨hx, hr⟩
        rcases List.mem_cons.1 hx with rfl | hx
        · exact absurd hr ha
        · exact ⟨hx, hr⟩

theorem positions_one {cols : List Nat} (h : cols.Nodup) {c : Nat} (hc : c ∈ cols) :
    ((List.range cols.length).filter fun j => decide (cols[j]? = some c)) = [cols.idxOf c] := by
  have hlt := List.idxOf_lt_length_iff.2 hc
  have e : ∀ j ∈ List.range cols.length, decide (cols[j]? = some c) = decide (j = cols.idxOf c) := by
    intro j hj
    have hj' := List.mem_range.1 hj
    congr 1
    apply propext
    rw [List.getElem?_eq_getElem hj', Option.some.injEq]
    constructor
    · intro hv
      rw [← hv, List.Nodup.idxOf_getElem h]
    · rintro rfl
      exact List.getElem_idxOf hj'
  rw [List.filter_congr e]
  rw [show (fun j => decide (j = cols.idxOf c)) = (fun j => j == cols.idxOf c) from rfl, List.filter_beq]
  rw [List.count_eq_one_of_mem List.nodup_range (List.mem_range.2 hlt)]
  rfl

theorem positions_eq {A : Frame α} (h : A.columns.Nodup) {cs : List Nat} (hc : ∀ c ∈ cs, c ∈ A.columns) :
    A.positions cs = cs.map A.columns.idxOf := by
  unfold Frame.positions
  induction cs with
  | nil => rfl
  | cons c cs ih =>
    rw [List.flatMap_cons, positions_one h (hc c (by simp)), ih fun d hd => hc d (by simp [hd])]
    rfl

theorem filterMap_all {β γ : Type} (f : β → Option γ) (g : β → γ) (l : List β) (h : ∀ x ∈ l, f x = some (g x)) :
    l.filterMap f = l.map g := by
  induction l with
  | nil => rfl
  | cons a l ih =>
    rw [List.filterMap_cons, h a (by simp), ih fun x hx => h x (by simp [hx])]
    rfl

theorem intersected_columns {A : Frame α} (h : Labelled A) {rows cols : List Nat} (hc : ∀ c ∈ cols, c ∈ A.columns) :
    (intersected rows cols A).columns = cols := by
  show ((A.keepRows rows).positions cols).filterMap (fun j => A.columns[j]?) = cols
  rw [positions_eq (A := A.keepRows rows) h.columns hc]
  show (cols.map A.columns.idxOf).filterMap (fun j => A.columns[j]?) = cols
  rw [List.filterMap_map, filterMap_all _ id]
  · exact List.map_id _
  · intro c hcc
    show A.columns[A.columns.idxOf c]? = some c
    rw [List.getElem?_eq_getElem (List.idxOf_lt_length_iff.2 (hc c hcc)), List.getElem_idxOf]

theorem intersected_index_perm (A : Frame α) (rows cols : List Nat) :
    (intersected rows cols A).index.Perm (A.index.filter fun r => decide (r ∈ rows)) := by
  have h1 : (intersected rows cols A).index.Perm ((A.keepRows rows).select cols).index :=
    (List.perm_insertionSort _ _).map _
  refine h1.trans (List.Perm.of_eq ?_)
  simp only [Frame.index, Frame.select, Frame.keepRows, List.map_map, List.filter_map]
  rfl

theorem intersected_index_sorted (A : Frame α) (rows cols : List Nat) :
    (intersected rows cols A).index.Pairwise (· ≤ ·) := by
  have : Std.Total fun r s : Nat × List α => r.1 ≤ s.1 := ⟨fun a b => Nat.le_total a.1 b.1⟩
  have : IsTrans (Nat × List α) fun r s => r.1 ≤ s.1 := ⟨fun a b c => Nat.le_trans⟩
  exact List.pairwise_map.2 (List.pairwise_insertionSort (fun r s : Nat × List α => r.1 ≤ s.1) _)

/-- **C121** is false: whatever the frames, the call raises an exception -/
theorem C121_never (rows cols : List Nat) (A B : Frame α) (R : Frame α × Frame α) :
    intersect_dataframes rows cols A B ≠ .ok R := by
  intro h
  unfold intersect_dataframes at h
  cases h1 : assertSame (intersected rows cols A).index (intersected rows cols B).index with
  | error e => simp only [h1, bind, Except.bind] at h; cases h
  | ok u =>
    cases h2 : assertSame (intersected rows cols A).columns (intersected rows cols B).columns with
    | error e => simp only [h1, h2, bind, Except.bind] at h; cases h
    | ok u => simp only [h1, h2, bind, Except.bind] at h; cases h

/-- **C121**, labels: the two frames that the function computes have the joint labels of rows, in ascending order, and the
joint labels of columns, in the same order -/
theorem C121_labels_partial {A B : Frame α} (hA : Labelled A) (hB : Labelled B) {rows cols : List Nat}
    (hr : IsSetOrder rows A.index B.index) (hc : IsSetOrder cols A.columns B.columns) :
    (intersected rows cols A).index = (intersected rows cols B).index ∧
    (intersected rows cols A).columns = (intersected rows cols B).columns ∧
    (intersected rows cols A).index.Pairwise (· < ·) ∧
    (∀ r, r ∈ (intersected rows cols A).index ↔ r ∈ A.index ∧ r ∈ B.index) ∧
    (intersected rows cols A).columns.Nodup ∧
    ∀ c, c ∈ (intersected rows cols A).columns ↔ c ∈ A.columns ∧ c ∈ B.columns := by
  have hmem : ∀ (C : Frame α), (∀ x ∈ rows, x ∈ C.index) → ∀ r, r ∈ (intersected rows cols C).index ↔ r ∈ rows := by
    intro C hC r
    rw [(intersected_index_perm C rows cols).mem_iff, List.mem_filter, decide_eq_true_iff]
    exact ⟨fun h => h.2, fun h => ⟨hC r h, h⟩⟩
  have mA := hmem A fun x hx => ((hr.2 x).1 hx).1
  have mB := hmem B fun x hx => ((hr.2 x).1 hx).2
  have nd : ∀ (C : Frame α), C.index.Nodup → (intersected rows cols C).index.Nodup := fun C hC =>
    ((intersected_index_perm C rows cols).nodup_iff).2 (hC.filter _)
  have hp : (intersected rows cols A).index.Perm (intersected rows cols B).index :=
    (List.perm_ext_iff_of_nodup (nd A hA.index) (nd B hB.index)).2 fun r => (mA r).trans (mB r).symm
  have cA : (intersected rows cols A).columns = cols := intersected_columns hA fun c h => ((hc.2 c).1 h).1
  have cB : (intersected rows cols B).columns = cols := intersected_columns hB fun c h => ((hc.2 c).1 h).2
  refine ⟨hp.eq_of_pairwise' (intersected_index_sorted A rows cols) (intersected_index_sorted B rows cols), cA.trans cB.symm, ?_,
    fun r => (mA r).trans (hr.2 r), by rw [cA]; exact hc.1, fun c => by rw [cA]; exact hc.2 c⟩
  have hs := intersected_index_sorted A rows cols
  have hn := nd A hA.index
  exact (hs.and hn).imp fun h => lt_of_le_of_ne h.1 h.2

/-- **C121**, entries: in the joint rows and columns, each of the two frames has the entries it had -/
theorem C121_entries_partial {A : Frame α} (hA : Labelled A) {rows cols : List Nat} (hcs : cols.Nodup)
    (hrows : ∀ r ∈ rows, r ∈ A.index) (hcols : ∀ c ∈ cols, c ∈ A.columns) (r c : Nat) (hr : r ∈ rows) (hc : c ∈ cols) :
    entry (intersected rows cols A) r c = entry A r c ∧ (entry A r c).isSome := by
  obtain ⟨x, hx, hxr⟩ := List.mem_map.1 (hrows r hr)
  have hfA : (A.rows.find? fun row => decide (row.1 = r)) = some x := (find_row hA.index r x).2 ⟨hx, hxr⟩
  have hw := hA.width x hx
  have hlt : A.columns.idxOf c < x.2.length := by rw [hw]; exact List.idxOf_lt_length_iff.2 (hcols c hc)
  have hpos := positions_eq (A := A.keepRows rows) hA.columns hcols
  have hnd : ((intersected rows cols A).rows.map (·.1)).Nodup :=
    ((intersected_index_perm A rows cols).nodup_iff).2 (hA.index.filter _)
  let y : Nat × List α := (x.1, ((A.keepRows rows).positions cols).filterMap fun j => x.2[j]?)
  have hy : y ∈ (intersected rows cols A).rows := by
    refine (List.perm_insertionSort _ _).mem_iff.2 ?_
    exact List.mem_map.2 ⟨x, List.mem_filter.2 ⟨hx, by rw [decide_eq_true_iff, hxr]; exact hr⟩, rfl⟩
  have hfB : ((intersected rows cols A).rows.find? fun row => decide (row.1 = r)) = some y :=
    (find_row hnd r y).2 ⟨hy, hxr⟩
  have hyv : y.2[cols.idxOf c]? = x.2[A.columns.idxOf c]? := by
    show (((A.keepRows rows).positions cols).filterMap fun j => x.2[j]?)[cols.idxOf c]? = _
    rw [hpos]
    show ((cols.map A.columns.idxOf).filterMap fun j => x.2[j]?)[cols.idxOf c]? = _
    have hall : ∀ d ∈ cols, A.columns.idxOf d < x.2.length := fun d hd => by
      rw [hw]; exact List.idxOf_lt_length_iff.2 (hcols d hd)
    have e0 : ((cols.map A.columns.idxOf).filterMap fun j => x.2[j]?) = cols.filterMap fun d => x.2[A.columns.idxOf d]? := by
      rw [List.filterMap_map]; rfl
    rw [e0]
    have e1 : (cols.filterMap fun d => x.2[A.columns.idxOf d]?).map some = cols.map fun d => x.2[A.columns.idxOf d]? := by
      clear e0 hc hpos hfB hy hnd hcs
      induction cols with
      | nil => rfl
      | cons d ds ih =>
        rw [List.filterMap_cons, List.map_cons, List.getElem?_eq_getElem (hall d (by simp))]
        simp only [List.map_cons]
        rw [ih (fun c hc => hcols c (by simp [hc])) (fun c hc => hall c (by simp [hc]))]
    have e2 := congrArg (fun l => l[cols.idxOf c]?) e1
    simp only [List.getElem?_map, List.getElem?_eq_getElem (List.idxOf_lt_length_iff.2 hc), List.getElem_idxOf,
      Option.map_some] at e2
    cases hv : (cols.filterMap fun d => x.2[A.columns.idxOf d]?)[cols.idxOf c]? with
    | none => rw [hv] at e2; simp at e2
    | some v =>
      rw [hv] at e2
      simpa using e2
  unfold entry
  rw [hfA, hfB, intersected_columns hA hcols]
  exact ⟨hyv, by simp [List.getElem?_eq_getElem hlt]⟩

/-- **C121**, the exception: for frames without repeated labels it is the NameError of the message that is printed last -/
theorem C121_wrong {A B : Frame α} (hA : Labelled A) (hB : Labelled B) {rows cols : List Nat}
    (hr : IsSetOrder rows A.index B.index) (hc : IsSetOrder cols A.columns B.columns) :
    intersect_dataframes rows cols A B = .error .nameError := by
  obtain ⟨h1, h2, -⟩ := C121_labels_partial hA hB hr hc
  unfold intersect_dataframes
  have same : ∀ l : List Nat, assertSame l l = .ok () := by
    intro l
    rw [assertSame, if_neg (by simp), if_pos rfl]
  simp only [h1, h2, same, bind, Except.bind]
  rfl

/-- **C121**, repeated labels: a label that two rows of one frame and one row of the other have raises ValueError -/
theorem C121_repeated (a b c : α) :
    intersect_dataframes [1] [5] (⟨[5], [(1, [a]), (1, [b])]⟩ : Frame α) ⟨[5], [(1, [c])]⟩ = .error .valueError := by
  rfl

/-- frames that meet the hypotheses: rows 2, 1 and columns 7, 8 of one, rows 1, 3 and columns 8, 9 of the other -/
example : ∃ (A B : Frame Int) (rows cols : List Nat), Labelled A ∧ Labelled B ∧ IsSetOrder rows A.index B.index ∧
    IsSetOrder cols A.columns B.columns ∧ rows ≠ [] ∧ cols ≠ [] :=
  ⟨⟨[7, 8], [(2, [1, -1]), (1, [0, 1])]⟩, ⟨[8, 9], [(1, [1, 1]), (3, [0, 0])]⟩, [1], [8],
    ⟨by decide, by decide, by decide⟩, ⟨by decide, by decide, by decide⟩,
    ⟨by decide, by intro x; simp [Frame.index]; omega⟩, ⟨by decide, by intro x; simp; omega⟩, by decide, by decide⟩

end LFM
