import Verif.Spec.Lines
import Verif.Properties.Plain
import Verif.Properties.FromFile
/-!
Lemmas for C84: from the lines of the item file to the results.
-/
namespace ABX.Database
open ABX.Spec Spec SideOps ABX.Task ABX.Pipeline Analyze ExtSort
variable {φ δ : Type}

/-- rows in terms of other triplets -/
theorem PlainResults.transfer {τ τ' : Type} {on : String} {across : List String} {vars : List Var} {key : List Val} {grp : Labels → List τ} {grp' : Labels → List τ'} {abx : τ → ℚ} {abx' : τ' → ℚ}
    {out : List OutRow} (g : τ → τ') (hg : ∀ l : Labels, grp' l = (grp l).map g) (ha : ∀ l : Labels, l.Possible across → ∀ t ∈ grp l, abx' (g t) = abx t)
    (h : PlainResults on across vars key grp abx out) : PlainResults on across vars key grp' abx' out := by
  have hne : ∀ l, grp' l ≠ [] ↔ grp l ≠ [] := fun l => by rw [hg]; simp
  have row : ∀ l : Labels, l.Possible across → ∀ o, PlainRow on vars key grp abx l o → PlainRow on vars key grp' abx' l o := by
    rintro l hl o ⟨h1, h2, h3, h4, h5, h6⟩
    have hs : (grp' l).map abx' = (grp l).map abx := by
      rw [hg, List.map_map]
      exact List.map_congr_left fun t ht => ha l hl t ht
    have hs2 : (grp' l).map (fun t => 2 * abx' t - 1) = (grp l).map (fun t => 2 * abx t - 1) := by
      rw [hg, List.map_map]
      exact List.map_congr_left fun t ht => by rw [Function.comp_apply, ha l hl t ht]
    exact ⟨h1, h2, by rw [h3, hg, List.length_map], by rw [hs]; exact h4, h5, by rw [hs2]; exact h6⟩
  refine ⟨h.once, ?_, ?_⟩
  · intro o ho
    obtain ⟨l, h1, h2, h3⟩ := h.rows o ho
    exact ⟨l, h1, (hne l).mpr h2, row l h1 o h3⟩
  · intro l h1 h2
    obtain ⟨o, ho, h3⟩ := h.all l h1 ((hne l).mp h2)
    exact ⟨o, ho, row l h1 o h3⟩

section
variable {fs : Text → Option (Raw Val)} {f : Text} {r : Raw Val} {loc : List Text} {x : Text} {lab : List Text} {on : String} {across by_ : List String}

/-- the labels of a line as a row -/
def rowOfLine (first : Nat) (labels : List Text) (p : Line) : Row := toRow labels ((List.range' first labels.length).map (fieldAt p.1))

/-- the arguments of a plain task -/
abbrev plainArgs (r : Raw Val) (first : Nat) (labels : List Text) (on : String) (across by_ : List String) : Task.Args (Nat × List (Option Val)) :=
  argsOf r first labels on across by_ [] [] ⟨[on], across, by_⟩

/-- the selection of a level -/
theorem level_filter (hI : ItemFile fs f r loc x lab) (hC : Columns (x :: lab) on across by_) (key : List Val) :
    (complete r (3 + loc.length)).filter (fun p => by_.map (rowOfLine (3 + loc.length) (x :: lab) p) == (if by_ = [] then [] else key)) = levelLines r (3 + loc.length) (x :: lab) by_ key := by
  unfold levelLines
  refine List.filter_congr fun p hp => ?_
  rw [Bool.eq_iff_iff, beq_iff_eq, beq_iff_eq]
  have hlab : by_.map (label (3 + loc.length) (x :: lab) p.1) = (by_.map (rowOfLine (3 + loc.length) (x :: lab) p)).map some := by
    rw [List.map_map]
    exact List.map_congr_left fun c hc => label_toRow (hlen hI) hp (mem_ofList.mpr (hC.by_ c hc))
  rw [hlab]
  by_cases hb : by_ = []
  · simp [hb]
  · rw [if_neg hb, if_neg hb]
    exact ⟨fun h => by rw [h], fun h => List.map_injective_iff.mpr (Option.some_injective _) h⟩

/-- the items of a level are its lines -/
theorem items_lines (hI : ItemFile fs f r loc x lab) (hC : Columns (x :: lab) on across by_) (key : List Val) :
    itemsOf (plainArgs r (3 + loc.length) (x :: lab) on across by_) key =
      (levelLines r (3 + loc.length) (x :: lab) by_ key).zipIdx.map (fun q => (q.2, rowOfLine (3 + loc.length) (x :: lab) q.1)) := by
  rw [← level_filter hI hC]
  unfold itemsOf ABX.Spec.items specKey
  show ((((complete r (3 + loc.length)).map _).map _).filter _).zipIdx.map _ = _
  rw [List.map_map, List.filter_map, List.zipIdx_map, List.map_map]
  rfl

/-- the records of a level are those of its lines -/
theorem records_lines (hI : ItemFile fs f r loc x lab) (hC : Columns (x :: lab) on across by_) (key : List Val) :
    records by_ ((plainArgs r (3 + loc.length) (x :: lab) on across by_).db.map (·.2)) (plainArgs r (3 + loc.length) (x :: lab) on across by_).feat
      (specKey (plainArgs r (3 + loc.length) (x :: lab) on across by_) key) = (levelLines r (3 + loc.length) (x :: lab) by_ key).map (record (3 + loc.length)) := by
  rw [← level_filter hI hC]
  unfold records specKey
  show ((((complete r (3 + loc.length)).map _).map _).zip ((complete r (3 + loc.length)).map _) |>.filter _).map _ = _
  rw [List.map_map, List.zip_map', List.filter_map, List.map_map]
  rfl

theorem levelLines_nodup (r : Raw Val) (first : Nat) (labels : List Text) (by_ : List String) (key : List Val) : ((levelLines r first labels by_ key).map (·.2)).Nodup := by
  have : (levelLines r first labels by_ key).Sublist r.rows.zipIdx := List.filter_sublist.trans List.filter_sublist
  refine List.Nodup.sublist (this.map _) ?_
  have h : r.rows.zipIdx.map (·.2) = List.range' 0 r.rows.length := List.zipIdx_map_snd _ _
  rw [h]
  exact List.nodup_range'

/-- the line of an item -/
def lineAt (lines : List Line) (i : Nat) : Line := (lines[i]?).getD ([], 0)

theorem map_lineAt (lines : List Line) (g : Line → Row) : (lines.zipIdx.map (fun q => (q.2, g q.1))).map (fun p : Item => lineAt lines p.1) = lines := by
  rw [List.map_map]
  apply List.ext_getElem?
  intro i
  rw [List.getElem?_map, List.getElem?_zipIdx]
  cases h : lines[i]? with
  | none => simp
  | some p => simp [lineAt, h]

theorem item_line {lines : List Line} {g : Line → Row} {p : Item} (hp : p ∈ lines.zipIdx.map (fun q => (q.2, g q.1))) : lines[p.1]? = some (lineAt lines p.1) ∧ p.2 = g (lineAt lines p.1) := by
  obtain ⟨q, hq, rfl⟩ := List.mem_map.mp hp
  obtain ⟨i, hi⟩ := List.getElem?_of_mem hq
  rw [List.getElem?_zipIdx, Option.map_eq_some_iff] at hi
  obtain ⟨a, ha, rfl⟩ := hi
  simp only [Nat.zero_add]
  rw [show lineAt lines i = a by simp [lineAt, ha]]
  exact ⟨ha, rfl⟩

theorem lineAt_inj {lines : List Line} (hn : (lines.map (·.2)).Nodup) {i j : Nat} {p q : Line} (hi : lines[i]? = some p) (hj : lines[j]? = some q) : p.2 = q.2 ↔ i = j := by
  constructor
  · intro h
    have h1 : (lines.map (·.2))[i]? = some p.2 := by rw [List.getElem?_map, hi]; rfl
    have h2 : (lines.map (·.2))[j]? = some q.2 := by rw [List.getElem?_map, hj]; rfl
    have hlt : i < (lines.map (·.2)).length := (List.getElem?_eq_some_iff.mp h1).1
    exact (List.getElem?_inj hlt hn).mp (h1.trans (by rw [h, h2]))
  · rintro rfl
    rw [hi] at hj
    injection hj with hj
    rw [hj]

/-- a triplet of items as one of lines -/
def lineTri (lines : List Line) (t : Item × Item × Item) : Line × Line × Line := (lineAt lines t.1.1, lineAt lines t.2.1.1, lineAt lines t.2.2.1)

theorem filter_lineAt (lines : List Line) (g : Line → Row) (p : Item → Bool) (q : Line → Bool) (h : ∀ i ∈ lines.zipIdx.map (fun q => (q.2, g q.1)), p i = q (lineAt lines i.1)) :
    ((lines.zipIdx.map (fun q => (q.2, g q.1))).filter p).map (fun i : Item => lineAt lines i.1) = lines.filter q := by
  conv_rhs => rw [← map_lineAt lines g, List.filter_map]
  congr 1
  exact List.filter_congr h

theorem map_flatMap_lines {α β γ γ' : Type} (l : List α) (k : α → β) (F : α → List γ) (G : β → List γ') (m : γ → γ') (h : ∀ x ∈ l, (F x).map m = G (k x)) : (l.flatMap F).map m = (l.map k).flatMap G := by
  rw [List.map_flatMap, List.flatMap_map]
  exact List.flatMap_congr h

/-- the groups of items are those of lines -/
theorem group_lines {val : Line → String → Option Val} {lines : List Line} {g : Line → Row} (hn : (lines.map (·.2)).Nodup) {on : String} {across : List String}
    (hv : ∀ p ∈ lines, ∀ c, c = on ∨ c ∈ across → val p c = some (g p c)) (l : Labels) :
    lineGroup val on across lines l = (group on across (lines.zipIdx.map (fun q => (q.2, g q.1))) l).map (lineTri lines) := by
  have hval : ∀ i ∈ lines.zipIdx.map (fun q => (q.2, g q.1)), ∀ c, c = on ∨ c ∈ across → val (lineAt lines i.1) c = some (i.2 c) := by
    intro i hi c hc
    obtain ⟨h1, h2⟩ := item_line hi
    rw [hv _ (List.mem_of_getElem? h1) c hc, h2]
  have hcell : ∀ v s, (cell on across (lines.zipIdx.map (fun q => (q.2, g q.1))) v s).map (fun i : Item => lineAt lines i.1) = lineCell val on across lines v s := by
    intro v s
    refine filter_lineAt lines g _ _ fun i hi => ?_
    rw [hval i hi on (.inl rfl), Bool.eq_iff_iff]
    simp only [Bool.and_eq_true, beq_iff_eq, List.all_eq_true, Option.some.injEq]
    refine and_congr_right fun _ => forall₂_congr fun c hc => ?_
    rw [hval i hi c (.inr hc), Option.some.injEq]
  unfold lineGroup group
  rw [← hcell, ← hcell, ← hcell]
  symm
  refine map_flatMap_lines _ _ _ _ _ fun A hA => map_flatMap_lines _ _ _ _ _ fun B _ => ?_
  rw [List.map_map, List.filter_map, List.map_map]
  have hf : (cell on across (lines.zipIdx.map (fun q => (q.2, g q.1))) l.on1 l.across2).filter ((fun X => !across.isEmpty || X.2 != (lineAt lines A.1).2) ∘ fun i : Item => lineAt lines i.1) =
      (cell on across (lines.zipIdx.map (fun q => (q.2, g q.1))) l.on1 l.across2).filter (fun X => !across.isEmpty || X.1 != A.1) := by
    refine List.filter_congr fun X hX => ?_
    have h1 := (item_line (List.mem_filter.mp hA).1).1
    have h2 := (item_line (List.mem_filter.mp hX).1).1
    simp only [Function.comp_apply]
    congr 1
    rw [Bool.eq_iff_iff, bne_iff_ne, bne_iff_ne, ne_eq, ne_eq, lineAt_inj hn h2 h1]
  rw [hf]
  rfl

theorem abx_lines {lt : δ → δ → Bool} {getFeat : Nat × List (Option Val) → Except Err φ} {distance : φ → φ → Except Err δ} {lines : List Line} {rec : Line → Nat × List (Option Val)}
    {t : Item × Item × Item} {q : ℚ} (h : IsAbx lt (recDist getFeat distance) (lines.map rec) t q) :
    IsLineAbx lt (fun p p' => recDist getFeat distance (rec p) (rec p')) (lineTri lines t) q := by
  obtain ⟨rA, rB, rX, dAX, dBX, h1, h2, h3, h4, h5, h6⟩ := h
  have hh : ∀ i ρ, (lines.map rec)[i]? = some ρ → rec (lineAt lines i) = ρ := by
    intro i ρ h
    rw [List.getElem?_map, Option.map_eq_some_iff] at h
    obtain ⟨p, hp, rfl⟩ := h
    simp [lineAt, hp]
  refine ⟨dAX, dBX, ?_, ?_, h6⟩
  · show recDist _ _ (rec (lineAt lines t.1.1)) (rec (lineAt lines t.2.2.1)) = _
    rw [hh _ _ h1, hh _ _ h3, h4]
  · show recDist _ _ (rec (lineAt lines t.2.1.1)) (rec (lineAt lines t.2.2.1)) = _
    rw [hh _ _ h2, hh _ _ h3, h5]

theorem IsLineAbx.unique {lt : δ → δ → Bool} {dist : Line → Line → Except Err δ} {t : Line × Line × Line} {q q' : ℚ} (h : IsLineAbx lt dist t q) (h' : IsLineAbx lt dist t q') : q = q' := by
  obtain ⟨d1, d2, h1, h2, h3⟩ := h
  obtain ⟨d1', d2', h1', h2', h3'⟩ := h'
  rw [h1] at h1'
  rw [h2] at h2'
  injection h1' with e1
  injection h2' with e2
  rw [h3, h3', e1, e2]

end

end ABX.Database
