import Verif.Model.Alias

/-! # C67: what was read stays -/

namespace Verif.Props

open Verif Alias

theorem take_write (m : Mem) (b : Nat) (r : Bytes) : (write m b r b).take r.length = r := by
  simp [write]

/-- Fields that are not views are not changed by fetching. -/
theorem fetch_string (bufOf : Nat → Nat) (i : Nat) (m : Mem) (rows : List Bytes) :
    (fetch scanString bufOf i m rows).1 = rows.map .own := by
  induction rows generalizing i m with
  | nil => rfl
  | cons r rs ih =>
    simp only [fetch, List.map_cons, List.cons.injEq]
    exact ⟨by simp only [scanString, take_write], ih _ _⟩

theorem fetch_bytes (bufOf : Nat → Nat) (i : Nat) (m : Mem) (rows : List Bytes) :
    (fetch scanBytes bufOf i m rows).1 = rows.zipIdx.map (fun p => .view (bufOf (i + p.2)) p.1.length) := by
  induction rows generalizing i m with
  | nil => rfl
  | cons r rs ih =>
    simp only [fetch, List.zipIdx_cons, List.map_cons, List.cons.injEq]
    refine ⟨rfl, ?_⟩
    rw [ih, List.zipIdx_succ, List.map_map]
    apply List.map_congr_left
    intro p _
    simp only [Function.comp]
    rw [show i + 1 + p.2 = i + (p.2 + 1) by omega]

/-- A buffer that is not used any more keeps its contents. -/
theorem fetch_other (scan : Mem → Nat → Nat → Field) (bufOf : Nat → Nat) (i : Nat) (m : Mem) (rows : List Bytes) (b : Nat)
    (h : ∀ j, i ≤ j → j < i + rows.length → bufOf j ≠ b) : (fetch scan bufOf i m rows).2 b = m b := by
  induction rows generalizing i m with
  | nil => rfl
  | cons r rs ih =>
    simp only [fetch]
    rw [ih _ _ (fun j h1 h2 => h j (by omega) (by simp only [List.length_cons]; omega))]
    unfold write
    rw [if_neg]
    exact fun e => h i (Nat.le_refl _) (by simp only [List.length_cons]; omega) e.symm

/-- C67, strings: whatever buffers the driver uses, after the last row has been fetched the fields read as the rows that were sent. -/
theorem C67_strings (bufOf : Nat → Nat) (m : Mem) (rows : List Bytes) : result scanString bufOf m rows = rows := by
  unfold result
  simp only [fetch_string, List.map_map]
  conv => rhs; rw [← List.map_id rows]
  rfl

theorem result_bytes_get (bufOf : Nat → Nat) (m : Mem) (rows : List Bytes) (i : Nat) :
    (result scanBytes bufOf m rows)[i]? =
      rows[i]?.map fun r => ((fetch scanBytes bufOf 0 m rows).2 (bufOf i)).take r.length := by
  unfold result
  simp only [fetch_bytes, List.map_map, List.getElem?_map, List.getElem?_zipIdx, Nat.zero_add]
  cases rows[i]? <;> rfl

theorem fetch_append (scan : Mem → Nat → Nat → Field) (bufOf : Nat → Nat) (i : Nat) (m : Mem) (a b : List Bytes) :
    (fetch scan bufOf i m (a ++ b)).2 = (fetch scan bufOf (i + a.length) (fetch scan bufOf i m a).2 b).2 := by
  induction a generalizing i m with
  | nil => rfl
  | cons r rs ih =>
    simp only [fetch, List.cons_append, List.length_cons]
    rw [ih]
    rw [show i + 1 + rs.length = i + (rs.length + 1) by omega]

/-- C67, `[]byte`, only for drivers that never use a buffer twice.  Full statement: for all drivers.  Missing: drivers that
reuse their buffer, for which it is false (`C67_bytes_overwritten`). -/
theorem C67_bytes_partial (bufOf : Nat → Nat) (m : Mem) (rows : List Bytes)
    (h : ∀ i j, i < j → j < rows.length → bufOf i ≠ bufOf j) : result scanBytes bufOf m rows = rows := by
  apply List.ext_getElem?
  intro i
  rw [result_bytes_get]
  by_cases hi : i < rows.length
  · rw [List.getElem?_eq_getElem hi]
    simp only [Option.map_some, Option.some.injEq]
    have e : rows = rows.take i ++ rows[i] :: rows.drop (i + 1) := by
      rw [List.getElem_cons_drop, List.take_append_drop]
    have hl : (rows.take i).length = i := by simp; omega
    have hm : (fetch scanBytes bufOf 0 m rows).2 =
        (fetch scanBytes bufOf 0 m (rows.take i ++ rows[i] :: rows.drop (i + 1))).2 := congrArg (fun r => (fetch scanBytes bufOf 0 m r).2) e
    rw [hm, fetch_append, hl]
    simp only [fetch, Nat.zero_add]
    rw [fetch_other]
    · exact take_write _ _ _
    · intro j h1 h2 e
      simp only [List.length_drop] at h2
      exact h i j (by omega) (by omega) e.symm
  · rw [List.getElem?_eq_none (by omega)]
    rfl

/-- C67 is false of the code for drivers that use one buffer for all rows: after the next row has been fetched, the
field of a row reads as the beginning of the next row, if that is at least as long. -/
theorem C67_bytes_overwritten (b : Nat) (m : Mem) (rows : List Bytes) (r r' : Bytes) (h : r.length ≤ r'.length) :
    (result scanBytes (fun _ => b) m (rows ++ [r, r']))[rows.length]? = some (r'.take r.length) := by
  rw [result_bytes_get, fetch_append]
  simp only [fetch, List.getElem?_append_right (Nat.le_refl _), Nat.sub_self, List.getElem?_cons_zero, Option.map_some,
    Option.some.injEq]
  simp only [write, if_true]
  rw [List.take_append_of_le_length h]

/-- So the field is wrong unless the row is a prefix of the next one. -/
theorem C67_bytes_wrong (b : Nat) (m : Mem) (rows : List Bytes) (r r' : Bytes) (h : r.length ≤ r'.length) (hp : ¬ r <+: r') :
    result scanBytes (fun _ => b) m (rows ++ [r, r']) ≠ rows ++ [r, r'] := by
  intro e
  have h1 := C67_bytes_overwritten b m rows r r' h
  rw [e, List.getElem?_append_right (Nat.le_refl _)] at h1
  simp only [Nat.sub_self, List.getElem?_cons_zero, Option.some.injEq] at h1
  exact hp (h1 ▸ List.take_prefix _ _)

example : result scanBytes (fun _ => 0) (fun _ => []) [[1, 2], [3, 4]] = [[3, 4], [3, 4]] := by decide
example : result scanString (fun _ => 0) (fun _ => []) [[1, 2], [3, 4]] = [[1, 2], [3, 4]] := by decide
example : result scanBytes id (fun _ => []) [[1, 2], [3, 4]] = [[1, 2], [3, 4]] := by decide

end Verif.Props
