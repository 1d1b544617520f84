import Verif.Spec.TripletScores
import Verif.Spec.Pipeline
/-!
The record of an item of a level is the record of its line.
-/
namespace ABX.Spec
open SideOps
variable {ρ δ : Type}

theorem record_line {by_ : List String} {rows : List Row} {recs : List ρ} {key : List Val} (hl : recs.length = rows.length) {n : Nat} {r : ρ} (h : (records by_ rows recs key)[n]? = some r) :
    ∃ i, lineOf by_ rows key (n : Int) = some i ∧ recs[i]? = some r := by
  have e1 : rows.zipIdx = (rows.zip recs).zipIdx.map (fun q => (q.1.1, q.2)) := by
    conv_lhs => rw [show rows = (rows.zip recs).map (·.1) from (List.map_fst_zip (by omega)).symm]
    rw [List.zipIdx_map]
    rfl
  have e2 : rows.zip recs = (rows.zip recs).zipIdx.map (·.1) := by rw [List.zipIdx_map_fst]
  unfold records at h
  rw [e2, List.filter_map, List.map_map, List.getElem?_map, Option.map_eq_some_iff] at h
  obtain ⟨q, q1, q2⟩ := h
  have hq := (List.mem_filter.mp (List.mem_of_getElem? q1)).1
  rw [List.mem_zipIdx_iff_getElem?, List.getElem?_zip_eq_some] at hq
  refine ⟨q.2, ?_, ?_⟩
  · unfold lineOf levelLines
    rw [e1, List.filter_map, List.getElem?_map, Int.toNat_natCast]
    rw [show (List.filter ((fun p : Row × Nat => by_.map p.1 == key) ∘ fun q : (Row × ρ) × Nat => (q.1.1, q.2)) (rows.zip recs).zipIdx)[n]? = some q from q1]
    rfl
  · rw [hq.2]
    exact congrArg some q2

theorem IsLineScore.unique {lt : δ → δ → Bool} {dist : ρ → ρ → Except Err δ} {recs : List ρ} {u : Nat × Nat × Nat} {w w' : Int} (h : IsLineScore lt dist recs u w) (h' : IsLineScore lt dist recs u w') : w = w' := by
  obtain ⟨rA, rB, rX, d, d', a1, a2, a3, a4, a5, rfl⟩ := h
  obtain ⟨sA, sB, sX, f, f', b1, b2, b3, b4, b5, rfl⟩ := h'
  rw [a1] at b1; cases b1
  rw [a2] at b2; cases b2
  rw [a3] at b3; cases b3
  rw [a4] at b4; cases b4
  rw [a5] at b5; cases b5
  rfl

theorem lines_inj {u v : Nat × Nat × Nat} (h : lines u = lines v) : u = v := by
  unfold lines at h
  simp only [Prod.mk.injEq, Option.some.injEq] at h
  exact Prod.ext h.1 (Prod.ext h.2.1 h.2.2)

/-- the lines without the scores -/
theorem scoredLines_fst {by_ : List String} {rows : List Row} {F : Task.File} {S : List Int} (hl : F.data.length ≤ S.length) : (scoredLines by_ rows F S).map (·.1) = fileLines by_ rows (some F) := by
  unfold scoredLines fileLines
  rw [List.map_flatMap]
  congr 1
  funext p
  dsimp only
  have e : F.data = (F.data.zip S).map (·.1) := (List.map_fst_zip hl).symm
  conv_rhs => rw [e]
  rw [← List.map_take, ← List.map_drop, List.map_map, List.map_map]
  rfl

end ABX.Spec
