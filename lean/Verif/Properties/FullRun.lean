import Verif.Proofs.FullRun
import Verif.Model.FullRun
import Verif.Properties.Features
import Verif.Proofs.Distance
/-!
C92: the complete run of the example program (examples/complete_run.py 19-50; the same files are made in test/test_score.py and test/test_analyse.py): the item file is generated, a task
on 'c0' across 'c1' by 'c2' is created from it, and the results are computed from generated features.
-/
namespace ABX.Items
open Database Database.Spec ABX.Spec SideOps Analyze RegInfo ABX.Names.Spec
variable {φ δ : Type}

namespace Spec
/-- the results of one level `key` of an experiment on 'c0' across 'c1', both with `base` labels: one row for each pair of different labels a, b of 'c0' and each pair of different labels
x, y of 'c1', with `k` triplets and, up to 2^-52, the mean of their scores -/
structure FullTable {τ : Type} (base k : Nat) (vars : List Var) (key : List Val) (grp : Labels → List τ) (abx : τ → ℚ) (out : List OutRow) : Prop where
  count : out.length = (base * (base - 1)) ^ 2
  once : (out.map OutRow.labels).Nodup
  rows : ∀ o ∈ out, ∃ a < base, ∃ b < base, ∃ x < base, ∃ y < base, a ≠ b ∧ x ≠ y ∧ o.labels = vars.map ((combo a b x y).at "c0") ∧ o.by_ = key ∧ o.n = k ∧
    0 ≤ o.score ∧ o.score ≤ 1 ∧ (grp (combo a b x y)).length = k ∧ |o.score - ((grp (combo a b x y)).map abx).sum / k| ≤ 2 ^ (-52 : ℤ)
  all : ∀ a < base, ∀ b < base, ∀ x < base, ∀ y < base, a ≠ b → x ≠ y → ∃ o ∈ out, o.labels = vars.map ((combo a b x y).at "c0")

/-- the record of line i: its number, the recording 's<i>', from 0 to 0 -/
def lineRecord (parse : Text → Val) (i : Nat) : Nat × List (Option Val) := (i, [some (parse ('s' :: str i)), some (parse ['0']), some (parse ['0'])])

/-- the cosine distance of two frames: their angle divided by π; 0 for two null frames, 1 for one -/
noncomputable def frameDist {d : Nat} (x y : Fin d → ℝ) : ℝ :=
  haveI := Classical.propDecidable (∀ k, x k = 0)
  haveI := Classical.propDecidable (∀ k, y k = 0)
  if (∀ k, x k = 0) ∧ (∀ k, y k = 0) then 0 else if (∀ k, x k = 0) ∨ (∀ k, y k = 0) then 1
  else InnerProductGeometry.angle (WithLp.toLp 2 x : EuclideanSpace ℝ (Fin d)) (WithLp.toLp 2 y) / Real.pi

/-- the ABX score of three lines, of which `frame` gives the frame: 1 when X is nearer to A, 0 when it is nearer to B, 1/2 otherwise -/
def IsFrameAbx {d : Nat} (frame : Nat → Fin d → ℝ) (t : Line × Line × Line) (q : ℚ) : Prop :=
  (frameDist (frame t.1.2) (frame t.2.2.2) < frameDist (frame t.2.1.2) (frame t.2.2.2) → q = 1) ∧
  (frameDist (frame t.2.1.2) (frame t.2.2.2) < frameDist (frame t.1.2) (frame t.2.2.2) → q = 0) ∧
  (frameDist (frame t.1.2) (frame t.2.2.2) = frameDist (frame t.2.1.2) (frame t.2.2.2) → q = 1 / 2)
end Spec
open Spec

theorem combo_at_inj {vars : List Var} (hv : vars.Perm (plainVars "c0" ["c1"])) {a b x y a' b' x' y' : Nat}
    (h : vars.map ((combo a b x y).at "c0") = vars.map ((combo a' b' x' y').at "c0")) : a = a' ∧ b = b' ∧ x = x' ∧ y = y' := by
  have hm : ∀ v ∈ plainVars "c0" ["c1"], (combo a b x y).at "c0" v = (combo a' b' x' y').at "c0" v := fun v hv' => List.map_inj_left.mp h v (hv.mem_iff.mpr hv')
  refine ⟨named_iff.mp (hm ("c0", .one) (by simp [plainVars])), named_iff.mp (hm ("c0", .two) (by simp [plainVars])),
    named_iff.mp (hm ("c1", .one) (by simp [plainVars])), named_iff.mp (hm ("c1", .two) (by simp [plainVars]))⟩

theorem at_congr {vars : List Var} (hv : vars.Perm (plainVars "c0" ["c1"])) {l : Labels} {a b x y : Nat} (h1 : l.on1 = named 0 a) (h2 : l.on2 = named 0 b)
    (h3 : l.across1 "c1" = named 1 x) (h4 : l.across2 "c1" = named 1 y) : vars.map (l.at "c0") = vars.map ((combo a b x y).at "c0") := by
  apply List.map_congr_left
  intro v hvm
  have := hv.mem_iff.mp hvm
  simp only [plainVars, List.flatMap_cons, List.flatMap_nil, List.append_nil, List.cons_append, List.nil_append, List.mem_cons, List.not_mem_nil, or_false] at this
  rcases this with rfl | rfl | rfl | rfl
  · exact h1
  · exact h2
  · exact h3
  · exact h4

theorem group_at_congr {lines : List Line} {val : Line → String → Option Val} {l : Labels} {a b x y : Nat} (h1 : l.on1 = named 0 a) (h2 : l.on2 = named 0 b)
    (h3 : l.across1 "c1" = named 1 x) (h4 : l.across2 "c1" = named 1 y) : lineGroup val "c0" ["c1"] lines l = lineGroup val "c0" ["c1"] lines (combo a b x y) := by
  have hc : ∀ (v : Val) (s s' : String → Val), s "c1" = s' "c1" → lineCell val "c0" ["c1"] lines v s = lineCell val "c0" ["c1"] lines v s' := by
    intro v s s' h
    unfold lineCell
    simp [h]
  unfold lineGroup
  rw [hc l.on1 l.across1 (fun _ => named 1 x) h3, hc l.on2 l.across1 (fun _ => named 1 x) h3, hc l.on1 l.across2 (fun _ => named 1 y) h4, h1, h2]
  rfl

theorem str_ascii {m : Nat} {c : Char} (h : c ∈ str m) : 48 ≤ c.toNat ∧ c.toNat < 58 := by
  have := str_digit h
  simp only [Char.isDigit, Bool.and_eq_true, decide_eq_true_eq] at this
  have h1 : (48 : UInt32).toNat ≤ c.val.toNat := UInt32.le_iff_toNat_le.mp this.1
  have h2 : c.val.toNat ≤ (57 : UInt32).toNat := UInt32.le_iff_toNat_le.mp this.2
  have e1 : (48 : UInt32).toNat = 48 := rfl
  have e2 : (57 : UInt32).toNat = 57 := rfl
  show 48 ≤ c.val.toNat ∧ c.val.toNat < 58
  omega

theorem named_chars {j d : Nat} {ch : Char} (h : ch ∈ 'c' :: str j ++ '_' :: 'v' :: str d) : 48 ≤ ch.toNat ∧ ch.toNat < 128 := by
  simp only [List.cons_append, List.mem_cons, List.mem_append] at h
  rcases h with rfl | h | rfl | rfl | h
  · decide
  · have := str_ascii h; omega
  · decide
  · decide
  · have := str_ascii h; omega

theorem named_clean (j d : Nat) : CleanVal (named j d) ∧ (∀ s, named j d = .str s → ∀ ch ∈ s.toList, ch.toNat < 128) ∧ NoSlash (named j d) ∧ Nameable (named j d) := by
  unfold named CleanVal NoSlash Nameable Clean
  simp only [String.toList_ofList]
  refine ⟨⟨?_, ?_⟩, ?_, ?_, ?_, ?_⟩
  · intro h; exact absurd (named_chars h).1 (by decide)
  · intro h; exact absurd (named_chars h).1 (by decide)
  · intro s hs ch hch
    cases hs
    rw [String.toList_ofList] at hch
    exact (named_chars hch).2
  · intro h; exact absurd (named_chars h).1 (by decide)
  · intro h
    have := congrArg String.toList h
    rw [String.toList_ofList] at this
    simp at this
  · intro h
    have := congrArg String.toList h
    rw [String.toList_ofList] at this
    simp at this


section
variable {parse : Text → Val} (hparse : ∀ t, parse ('c' :: t) = .str (String.ofList ('c' :: t))) {base n repeats : Nat}
include hparse

omit hparse in
/-- rows with different labels for all combinations -/
theorem count_rows {vars : List Var} (hv : vars.Perm (plainVars "c0" ["c1"])) {out : List OutRow} (hone : (out.map OutRow.labels).Nodup)
    (hrows : ∀ o ∈ out, ∃ a < base, ∃ b < base, ∃ x < base, ∃ y < base, a ≠ b ∧ x ≠ y ∧ o.labels = vars.map ((combo a b x y).at "c0"))
    (hall : ∀ a < base, ∀ b < base, ∀ x < base, ∀ y < base, a ≠ b → x ≠ y → ∃ o ∈ out, o.labels = vars.map ((combo a b x y).at "c0")) : out.length = (base * (base - 1)) ^ 2 := by
  have hset : (out.map OutRow.labels).toFinset = ((Finset.range base).offDiag ×ˢ (Finset.range base).offDiag).image (fun p : (Nat × Nat) × (Nat × Nat) => vars.map ((combo p.1.1 p.1.2 p.2.1 p.2.2).at "c0")) := by
    ext c
    simp only [List.mem_toFinset, List.mem_map, Finset.mem_image, Finset.mem_product, Finset.mem_offDiag, Finset.mem_range]
    constructor
    · rintro ⟨o, ho, rfl⟩
      obtain ⟨a, ha, b, hb', x, hx, y, hy, hab, hxy, hlab⟩ := hrows o ho
      exact ⟨((a, b), (x, y)), ⟨⟨ha, hb', hab⟩, hx, hy, hxy⟩, hlab.symm⟩
    · rintro ⟨⟨⟨a, b⟩, x, y⟩, ⟨⟨ha, hb', hab⟩, hx, hy, hxy⟩, rfl⟩
      obtain ⟨o, ho, h⟩ := hall a ha b hb' x hx y hy hab hxy
      exact ⟨o, ho, h⟩
  have h1 : out.length = (out.map OutRow.labels).toFinset.card := by rw [List.toFinset_card_of_nodup hone, List.length_map]
  rw [h1, hset, Finset.card_image_of_injective, Finset.card_product, Finset.offDiag_card, Finset.card_range, Nat.mul_sub_one]
  · ring
  · rintro ⟨⟨a, b⟩, x, y⟩ ⟨⟨a', b'⟩, x', y'⟩ h
    obtain ⟨rfl, rfl, rfl, rfl⟩ := combo_at_inj hv h
    rfl

theorem full_table (hn : 3 ≤ n) (hb : 2 ≤ base) {vars : List Var} (hv : vars.Perm (plainVars "c0" ["c1"])) {z : Nat} (hz : z < base) {abx : Line × Line × Line → ℚ} {out : List OutRow}
    (R : PlainResults "c0" ["c1"] vars [named 2 z] (lineGroup (lineLabel [] "item".toList (colNames n)) "c0" ["c1"] (levelLines (rawOf parse (namedTestitems base n repeats)) 3 ("item".toList :: colNames n) ["c2"] [named 2 z])) abx out) :
    FullTable base ((base ^ (n - 3) * (repeats + 1)) ^ 3) vars [named 2 z]
      (lineGroup (lineLabel [] "item".toList (colNames n)) "c0" ["c1"] (levelLines (rawOf parse (namedTestitems base n repeats)) 3 ("item".toList :: colNames n) ["c2"] [named 2 z])) abx out := by
  have hK : 0 < (base ^ (n - 3) * (repeats + 1)) ^ 3 := by positivity
  have hrows : ∀ o ∈ out, ∃ a < base, ∃ b < base, ∃ x < base, ∃ y < base, a ≠ b ∧ x ≠ y ∧ o.labels = vars.map ((combo a b x y).at "c0") ∧ o.by_ = [named 2 z] ∧ o.n = (base ^ (n - 3) * (repeats + 1)) ^ 3 ∧
      0 ≤ o.score ∧ o.score ≤ 1 ∧ (lineGroup (lineLabel [] "item".toList (colNames n)) "c0" ["c1"] (levelLines (rawOf parse (namedTestitems base n repeats)) 3 ("item".toList :: colNames n) ["c2"] [named 2 z]) (combo a b x y)).length = (base ^ (n - 3) * (repeats + 1)) ^ 3 ∧
      |o.score - ((lineGroup (lineLabel [] "item".toList (colNames n)) "c0" ["c1"] (levelLines (rawOf parse (namedTestitems base n repeats)) 3 ("item".toList :: colNames n) ["c2"] [named 2 z]) (combo a b x y)).map abx).sum / ((base ^ (n - 3) * (repeats + 1)) ^ 3 : ℕ)| ≤ 2 ^ (-52 : ℤ) := by
    intro o ho
    obtain ⟨l, hl, hne, row⟩ := R.rows o ho
    obtain ⟨a, ha, b, hb', x, hx, y, hy, e1, e2, e3, e4⟩ := group_combo hparse hn (by omega) hne
    have hlen := combo_group hparse (repeats := repeats) hn ha hb' hx hy hz e1 e2 e3 e4
    have hgrp := group_at_congr (lines := levelLines (rawOf parse (namedTestitems base n repeats)) 3 ("item".toList :: colNames n) ["c2"] [named 2 z]) (val := lineLabel [] "item".toList (colNames n)) e1 e2 e3 e4
    have hsc := row.score
    rw [row.n, hlen, hgrp] at hsc
    refine ⟨a, ha, b, hb', x, hx, y, hy, ?_, ?_, row.labels.trans (at_congr hv e1 e2 e3 e4), row.by_, row.n.trans hlen, row.range.1, row.range.2, hgrp ▸ hlen, hsc⟩
    · rintro rfl; exact hl.1 (e1.trans e2.symm)
    · rintro rfl; exact hl.2 "c1" (by simp) (e3.trans e4.symm)
  have hall : ∀ a < base, ∀ b < base, ∀ x < base, ∀ y < base, a ≠ b → x ≠ y → ∃ o ∈ out, o.labels = vars.map ((combo a b x y).at "c0") := by
    intro a ha b hb' x hx y hy hab hxy
    have hlen := combo_group hparse (repeats := repeats) hn ha hb' hx hy hz (l := combo a b x y) rfl rfl rfl rfl
    obtain ⟨o, ho, row⟩ := R.all (combo a b x y) (combo_possible.mpr ⟨hab, hxy⟩) (by intro h0; rw [h0] at hlen; simp at hlen; omega)
    exact ⟨o, ho, row.labels⟩
  refine ⟨?_, R.once, hrows, hall⟩
  refine count_rows hv R.once (fun o ho => ?_) hall
  obtain ⟨a, ha, b, hb', x, hx, y, hy, hab, hxy, hlab, -⟩ := hrows o ho
  exact ⟨a, ha, b, hb', x, hx, y, hy, hab, hxy, hlab⟩

theorem named_printable (hn : 3 ≤ n) : ResultFile.PrintableLines (rawOf parse (namedTestitems base n repeats)) [] "item".toList (colNames n) "c0" ["c1"] ["c2"] := by
  refine ⟨?_, ?_, ?_, ?_⟩
  · have : ∀ c ∈ ["c0", "c1"], ('\t' ∉ c.toList ∧ '\n' ∉ c.toList) ∧ ∀ ch ∈ c.toList, ch.toNat < 128 := by decide +kernel
    exact this
  · intro c hc p hp v hv
    obtain ⟨i, -, -, e0, e1, -⟩ := mem_named hparse hp hn
    simp only [List.mem_cons, List.not_mem_nil, or_false] at hc
    rcases hc with rfl | rfl
    · rw [e0] at hv; cases hv; exact ⟨(named_clean _ _).1, (named_clean _ _).2.1⟩
    · rw [e1] at hv; cases hv; exact ⟨(named_clean _ _).1, (named_clean _ _).2.1⟩
  · intro c hc p hp v hv
    obtain ⟨i, -, -, -, -, e2⟩ := mem_named hparse hp hn
    obtain rfl := List.mem_singleton.mp hc
    rw [e2] at hv; cases hv; exact (named_clean _ _).2.2
  · intro c hc p hp v hv
    obtain rfl : c = "c2" := by simpa using hc.symm
    obtain ⟨i, -, -, -, -, e2⟩ := mem_named hparse hp hn
    rw [e2] at hv; cases hv
    refine ⟨(named_clean _ _).1, ?_⟩
    intro q hq w hw
    obtain ⟨i', -, -, -, -, e2'⟩ := mem_named hparse hq hn
    rw [e2'] at hw; cases hw
    exact SameKind.str

omit hparse in
theorem named_few (hN : base ^ n * (repeats + 1) ≤ 3535) : FewLineLabels (rawOf parse (namedTestitems base n repeats)) [] "item".toList (colNames n) "c0" ["c1"] := by
  unfold FewLineLabels
  have h : ∀ c, (((complete (rawOf parse (namedTestitems base n repeats)) 3).map (fun p => lineLabel [] "item".toList (colNames n) p c)).dedup.length) ^ 2 ≤ 3535 ^ 2 := by
    intro c
    refine Nat.pow_le_pow_left ?_ 2
    refine (List.dedup_sublist _).length_le.trans ?_
    rw [named_complete, List.length_map, List.length_map, List.length_range]
    exact hN
  have h0 := h "c0"
  have h1 := h "c1"
  simp only [List.length_nil, Nat.add_zero, List.map_cons, List.map_nil, List.prod_cons, List.prod_nil, Nat.mul_one]
  calc _ ≤ 3535 ^ 2 * 3535 ^ 2 := Nat.mul_le_mul h0 h1
    _ ≤ 2 ^ 53 := by norm_num

omit hparse in
/-- the record of a line of the generated file -/
theorem record_named {p : Line} (hp : p ∈ complete (rawOf parse (namedTestitems base n repeats)) 3) :
    ∃ i < base ^ n * (repeats + 1), p.2 = i ∧ record 3 p = lineRecord parse i := by
  rw [named_complete] at hp
  obtain ⟨i, hi, rfl⟩ := List.mem_map.mp hp
  refine ⟨i, by simpa using hi, rfl, ?_⟩
  unfold record lineRecord
  simp [List.range_succ, fields_at, namedCell]

omit hparse in
/-- the generated file is an item file with these columns and without gaps -/
theorem named_file (name : Text) (hn : 3 ≤ n) : ItemFile (oneFile (addExt name) (rawOf parse (namedTestitems base n repeats))) name (rawOf parse (namedTestitems base n repeats)) [] "item".toList (colNames n) ∧
    Columns ("item".toList :: colNames n) "c0" ["c1"] ["c2"] ∧ NoGap (rawOf parse (namedTestitems base n repeats)) 3 := by
  have hmem : ∀ j < 3, ∀ c : String, c = String.ofList ('c' :: str j) → c.toList ∈ "item".toList :: colNames n := by
    rintro j hj c rfl
    have : j < n := by omega
    exact List.mem_cons_of_mem _ (by rw [String.toList_ofList]; exact column_mem this)
  refine ⟨itemFile (f := namedCell base) (fourth := "item".toList) (by intro j; simp [namedCell]) (.inr rfl) parse name base n repeats, ?_, ?_⟩
  · refine ⟨hmem 0 (by omega) _ name0, ?_, ?_, ?_⟩
    · intro c hc; obtain rfl := List.mem_singleton.mp hc; exact hmem 1 (by omega) _ name1
    · intro c hc; obtain rfl := List.mem_singleton.mp hc; exact hmem 2 (by omega) _ name2
    · intro c hc
      rcases List.mem_cons.mp hc with rfl | hc
      · decide
      · obtain ⟨j, rfl⟩ := mem_colNames hc
        simp only [List.mem_cons, not_or]
        exact ⟨⟨by decide, fun h => (str_chars h).2.2.1 rfl⟩, by decide, fun h => (str_chars h).2.1 rfl⟩
  · unfold NoGap
    rw [named_complete, List.map_map, List.length_map, List.length_range]
    conv_rhs => rw [← List.map_id (List.range _)]
    rfl

omit hparse in
theorem named_length (base n repeats : Nat) : (rawOf parse (namedTestitems base n repeats)).rows.length = base ^ n * (repeats + 1) := (rowsOf (namedCell base) parse base n repeats).1

omit hparse in
theorem named_line {i : Nat} (hi : i < base ^ n * (repeats + 1)) : (fields parse base n i, i) ∈ complete (rawOf parse (namedTestitems base n repeats)) 3 := by
  rw [named_complete]
  exact List.mem_map.mpr ⟨i, by simpa using hi, rfl⟩

theorem named_group (hb : 2 ≤ base) (hn : 3 ≤ n) {z : Nat} (hz : z < base) :
    (lineGroup (lineLabel [] "item".toList (colNames n)) "c0" ["c1"] (levelLines (rawOf parse (namedTestitems base n repeats)) 3 ("item".toList :: colNames n) ["c2"] [named 2 z]) (combo 0 1 0 1)).length =
      (base ^ (n - 3) * (repeats + 1)) ^ 3 ∧
    lineGroup (lineLabel [] "item".toList (colNames n)) "c0" ["c1"] (levelLines (rawOf parse (namedTestitems base n repeats)) 3 ("item".toList :: colNames n) ["c2"] [named 2 z]) (combo 0 1 0 1) ≠ [] := by
  have hK : 0 < (base ^ (n - 3) * (repeats + 1)) ^ 3 := by positivity
  have hgl := combo_group hparse (repeats := repeats) hn (l := combo 0 1 0 1) (a := 0) (b := 1) (x := 0) (y := 1) (by omega) (by omega) (by omega) (by omega) hz rfl rfl rfl rfl
  refine ⟨hgl, ?_⟩
  intro h0
  rw [h0] at hgl
  simp at hgl
  omega

theorem named_level (hn : 3 ≤ n) (i : Nat) : lineLevel [] "item".toList (colNames n) ["c2"] (fields parse base n i, i) [named 2 (i / base ^ 2 % base)] := by
  unfold lineLevel
  rw [if_neg (List.cons_ne_nil _ _)]
  simp only [List.map_cons, List.map_nil]
  rw [named_label hparse (by omega) name2]

/-- the levels with triplets -/
theorem named_levels (hb : 2 ≤ base) (hn : 3 ≤ n) (key : List Val) : ((∃ p ∈ complete (rawOf parse (namedTestitems base n repeats)) 3, lineLevel [] "item".toList (colNames n) ["c2"] p key) ∧
    ∃ l : Labels, l.Possible ["c1"] ∧ lineGroup (lineLabel [] "item".toList (colNames n)) "c0" ["c1"] (levelLines (rawOf parse (namedTestitems base n repeats)) 3 ("item".toList :: colNames n) ["c2"] key) l ≠ []) ↔
    ∃ z < base, key = [named 2 z] := by
  constructor
  · rintro ⟨⟨p, hp, hlp⟩, -⟩
    obtain ⟨i, -, -, -, -, e2⟩ := mem_named hparse hp hn
    unfold lineLevel at hlp
    rw [if_neg (List.cons_ne_nil _ _), List.map_cons, List.map_nil, e2] at hlp
    refine ⟨_, Nat.mod_lt (i / base ^ 2) (by omega), ?_⟩
    match key, hlp with
    | [v], hlp => simpa using hlp.symm
  · rintro ⟨z, hz', rfl⟩
    refine ⟨⟨(fields parse base n (z * base ^ 2), z * base ^ 2), named_line ?_, ?_⟩, combo 0 1 0 1, combo_possible.mpr ⟨by omega, by omega⟩, (named_group hparse hb hn hz').2⟩
    · calc z * base ^ 2 < base * base ^ 2 := Nat.mul_lt_mul_of_pos_right hz' (by positivity)
        _ = base ^ 3 := by ring
        _ ≤ base ^ n := Nat.pow_le_pow_right (by omega) hn
        _ ≤ _ := Nat.le_mul_of_pos_right _ (by omega)
    · have := named_level hparse (base := base) hn (z * base ^ 2)
      rw [Nat.mul_div_cancel _ (by positivity), Nat.mod_eq_of_lt hz'] at this
      exact this

/-- C92: the complete run of the example, for item files with `base` values in each of `n` label columns and every line repeated `repeats` times: a task on 'c0' across 'c1' by 'c2' is created,
the experiment can be run, and every run gives results of `base` levels, in each of them one row for every pair of different labels of 'c0' and every pair of different labels of 'c1', with
(base^(n-3) (repeats+1))^3 triplets; the text of the results reads back as this table, a line with the names of the columns and base (base (base - 1))^2 lines of scores.
Missing: files with more than 3535 lines, and files with more than 128 lines and fewer triplets in a group than lines (see C77). -/
theorem C92_complete_partial (name : Text) (hb : 2 ≤ base) (hn : 3 ≤ n) (hN : base ^ n * (repeats + 1) ≤ 3535)
    (hfit : base ^ n * (repeats + 1) ≤ 128 ∨ base ^ n * (repeats + 1) ≤ (base ^ (n - 3) * (repeats + 1)) ^ 3) {e : Task.Env} (he : e.Lawful)
    {kind : DBFun Nat → Kind} (hk : IsColumn e (plainArgs (rawOf parse (namedTestitems base n repeats)) 3 ("item".toList :: colNames n) "c0" ["c1"] ["c2"]) kind)
    {c : Pipeline.Choices} (hc : c.Lawful) (hcpu : 0 < c.nCpu) {getFeat : Nat × List (Option Val) → Except Err φ} {distance : φ → φ → Except Err δ}
    (hf : ∀ i < base ^ n * (repeats + 1), ∃ v, getFeat (lineRecord parse i) = .ok v)
    (hd : ∀ i < base ^ n * (repeats + 1), ∀ j < base ^ n * (repeats + 1), ∀ v w, getFeat (lineRecord parse i) = .ok v → getFeat (lineRecord parse j) = .ok w → ∃ d, distance v w = .ok d) (zero : δ)
    {lt : δ → δ → Bool} (hlt : ∀ x y, lt x y = true → lt y x = false) :
    ∃ T, fromFile e (oneFile (addExt name) (rawOf parse (namedTestitems base n repeats))) name "c0" ["c1"] ["c2"] [] [] = .ok T ∧ (∃ F S, Pipeline.Ran c e T getFeat distance lt F S) ∧
      ∀ F S, Pipeline.Ran c e T getFeat distance lt F S → ∃ (f : H5IO.File Val) (vars : List Var) (outs : List (List OutRow)),
        regFile kind ResultFile.groupName e c.num 0 c.src ⟨[], []⟩ T = .ok f ∧ vars.Perm (plainVars "c0" ["c1"]) ∧ (∃ first g, f.groups.lookup first = some g) ∧
        (∀ num : ℚ → Text, (∀ q, Clean (num q)) → ∀ first g, f.groups.lookup first = some g → ∃ t, ResultFile.analyze num c.sortRows f first F.bys F.byIndex S = .ok t ∧
          Reads t ((vars.map (fun v => (extName v).toList) ++ ["by".toList, "score".toList, "n".toList]) :: outs.flatten.map (cells num))) ∧
        outs.flatten.length = base * (base * (base - 1)) ^ 2 ∧ F.bys.Perm ((List.range base).map (fun z => [named 2 z])) ∧
        List.Forall₂ (fun key out => ∃ abx : Line × Line × Line → ℚ,
          (∀ l : Labels, l.Possible ["c1"] → ∀ t ∈ lineGroup (lineLabel [] "item".toList (colNames n)) "c0" ["c1"] (levelLines (rawOf parse (namedTestitems base n repeats)) 3 ("item".toList :: colNames n) ["c2"] key) l,
            IsLineAbx lt (fun p p' => ABX.Spec.recDist getFeat distance (record 3 p) (record 3 p')) t (abx t)) ∧
          FullTable base ((base ^ (n - 3) * (repeats + 1)) ^ 3) vars key
            (lineGroup (lineLabel [] "item".toList (colNames n)) "c0" ["c1"] (levelLines (rawOf parse (namedTestitems base n repeats)) 3 ("item".toList :: colNames n) ["c2"] key)) abx out) F.bys outs := by
  obtain ⟨hI, hC, hg⟩ := named_file (parse := parse) name (base := base) (repeats := repeats) hn
  have hrl := named_length (parse := parse) base n repeats
  have hM0 : 0 < base ^ n * (repeats + 1) := by positivity
  have hline := fun i (hi : i < base ^ n * (repeats + 1)) => named_line (parse := parse) hi
  have hgl := fun z (hz : z < base) => named_group hparse (repeats := repeats) hb hn hz
  have hgne := fun z (hz : z < base) => (named_group hparse (repeats := repeats) hb hn hz).2
  have hposs : (combo 0 1 0 1).Possible ["c1"] := combo_possible.mpr ⟨by omega, by omega⟩
  have hlev := named_level hparse (base := base) hn
  have hrec : ∀ p ∈ complete (rawOf parse (namedTestitems base n repeats)) 3, ∃ v, getFeat (record 3 p) = .ok v := by
    intro p hp
    obtain ⟨i, hi, -, hr⟩ := record_named hp
    rw [hr]
    exact hf i hi
  have hdist : ∀ p ∈ complete (rawOf parse (namedTestitems base n repeats)) 3, ∀ p' ∈ complete (rawOf parse (namedTestitems base n repeats)) 3, ∀ v w,
      getFeat (record 3 p) = .ok v → getFeat (record 3 p') = .ok w → ∃ d, distance v w = .ok d := by
    intro p hp p' hp' v w
    obtain ⟨i, hi, -, hr⟩ := record_named hp
    obtain ⟨i', hi', -, hr'⟩ := record_named hp'
    rw [hr, hr']
    exact hd i hi i' hi' v w
  obtain ⟨T, F0, S0, hT, hz, hran⟩ := C84_ends_partial he hI hC hg (by rw [← hrl] at hN; exact hN) (hline 0 hM0) (hlev 0) hposs (hgne _ (Nat.mod_lt _ (by omega)))
    (by rw [← hrl] at hfit; rw [← (hgl (0 / base ^ 2 % base) (Nat.mod_lt _ (by omega))).1] at hfit; exact hfit) hc hcpu hrec hdist zero hlt
  refine ⟨T, hT, ⟨F0, S0, hran⟩, ?_⟩
  intro F S hr
  obtain ⟨f, vars, outs, o1, o2, o3, o4, o5, o6, o7⟩ := ResultFile.C91_lines_partial he hI
    (by rw [← hrl] at hN; exact lt_of_le_of_lt (Nat.pow_le_pow_left hN 3) (by norm_num)) hT (List.ne_nil_of_mem (hline 0 hM0)) (named_few hN) (by decide) (by decide) (named_printable hparse hn) hk hz hc hlt hr
  have hbys : ∀ key, key ∈ F.bys ↔ ∃ z < base, key = [named 2 z] := by
    intro key
    rw [o6]
    exact named_levels hparse hb hn key
  have hperm : F.bys.Perm ((List.range base).map (fun z => [named 2 z])) := by
    rw [List.perm_ext_iff_of_nodup o5 (List.nodup_range.map (by intro a b h; simpa [named_iff] using h))]
    intro key
    rw [hbys key]
    simp [eq_comm]
  have htab : List.Forall₂ (fun key out => ∃ abx : Line × Line × Line → ℚ,
      (∀ l : Labels, l.Possible ["c1"] → ∀ t ∈ lineGroup (lineLabel [] "item".toList (colNames n)) "c0" ["c1"] (levelLines (rawOf parse (namedTestitems base n repeats)) 3 ("item".toList :: colNames n) ["c2"] key) l,
        IsLineAbx lt (fun p p' => ABX.Spec.recDist getFeat distance (record 3 p) (record 3 p')) t (abx t)) ∧
      FullTable base ((base ^ (n - 3) * (repeats + 1)) ^ 3) vars key
        (lineGroup (lineLabel [] "item".toList (colNames n)) "c0" ["c1"] (levelLines (rawOf parse (namedTestitems base n repeats)) 3 ("item".toList :: colNames n) ["c2"] key)) abx out) F.bys outs := by
    refine forall₂_imp_mem o7 ?_
    rintro key hkey out ⟨abx, ha, R⟩
    obtain ⟨z, hz', rfl⟩ := (hbys key).mp hkey
    exact ⟨abx, ha, full_table hparse hn hb o2 hz' R⟩
  refine ⟨f, vars, outs, o1, o2, o3, o4, ?_, hperm, htab⟩
  have hlen : F.bys.length = base := by rw [hperm.length_eq, List.length_map, List.length_range]
  have hsum : ∀ {ks : List (List Val)} {os : List (List OutRow)} {P : List Val → List OutRow → Prop}, List.Forall₂ P ks os → (∀ k o, P k o → o.length = (base * (base - 1)) ^ 2) →
      os.flatten.length = ks.length * (base * (base - 1)) ^ 2 := by
    intro ks os P h hP
    induction h with
    | nil => simp
    | cons h1 _ ih => rw [List.flatten_cons, List.length_append, hP _ _ h1, ih, List.length_cons, Nat.succ_mul, Nat.add_comm]
  rw [hsum htab (by rintro k o ⟨abx, -, ft⟩; exact ft.count), hlen]

end

/-! ### generated features -/

theorem linspace_cons {n : Nat} (hn : 0 < n) : ∃ rest, linspace n = 0 :: rest ∧ (∀ t ∈ rest, 0 < t) ∧ rest.length + 1 = n := by
  unfold linspace
  by_cases h : n = 1
  · subst h; exact ⟨[], by simp⟩
  · rw [if_neg h]
    obtain ⟨m, rfl⟩ : ∃ m, n = m + 1 := ⟨n - 1, by omega⟩
    rw [List.range_succ_eq_map, List.map_cons, List.map_map]
    refine ⟨(List.range m).map ((fun i : Nat => (i : ℚ) / ((m + 1 - 1 : Nat) : ℚ)) ∘ Nat.succ), by simp, ?_, by simp⟩
    intro t ht
    obtain ⟨i, -, rfl⟩ := List.mem_map.mp ht
    have : (0 : ℚ) < ((m + 1 - 1 : Nat) : ℚ) := by
      have : 0 < m + 1 - 1 := by omega
      exact_mod_cast this
    simp only [Function.comp]
    positivity

/-- C92: the features of an item are the frames of its recording whose time is between its onset and its offset, both included; a file that is called by a number is that of its digits. -/
theorem C92_item {ψ : Type} (F : Distances.FeatFile ℚ ψ) (k : Nat) (f : Val) (on off : Int) {file : String} (hf : f = .str file ∨ ∃ n : Int, f = .int n ∧ file = toString n) (times : List ℚ) (frames : List ψ)
    (h : F.lookup file = some (times, frames)) (hl : times.length = frames.length) :
    itemFeatures F (k, [some f, some (.int on), some (.int off)]) = .ok (((times.zip frames).filter (fun p : ℚ × ψ => decide ((on : ℚ) ≤ p.1 ∧ p.1 ≤ (off : ℚ)))).map (·.2)) := by
  have : ∀ r : Distances.Item ℚ, r = ⟨file, on, off⟩ → Distances.getRaw (fun x y => decide (x ≤ y)) F r = .ok (((times.zip frames).filter (fun p : ℚ × ψ => decide ((on : ℚ) ≤ p.1 ∧ p.1 ≤ (off : ℚ)))).map (·.2)) := by
    rintro r rfl
    rw [Distances.C58_frames _ _ _ _ _ h hl]
    simp only [Bool.decide_and]
  unfold itemFeatures
  rcases hf with rfl | ⟨n, rfl, rfl⟩
  · exact this _ rfl
  · exact this _ rfl

/-- C92, example: the frames of half of a recording -/
example : itemFeatures (genFeatures [["a", "b"], ["c", "d", "e"]]) (5, [some (.str "s1"), some (.int 1), some (.int 1)]) = .ok ["e"] := by
  rw [C92_item _ _ _ _ _ (file := "s1") (.inl rfl) (linspace 3) ["c", "d", "e"] (by decide +kernel) (by decide +kernel)]
  decide +kernel

/-- C92: the features of an item of the generated files are one frame, the first of the recording. -/
theorem C92_frame {ψ : Type} {parse : Text → Val} (hs : ∀ t, parse ('s' :: t) = .str (String.ofList ('s' :: t))) (h0 : parse ['0'] = .int 0) (first : Nat → ψ) (rest : Nat → List ψ) {M i : Nat} (hi : i < M) :
    itemFeatures (genFeatures ((List.range M).map (fun i => first i :: rest i))) (lineRecord parse i) = .ok [first i] := by
  unfold itemFeatures lineRecord
  dsimp only
  rw [hs, h0]
  dsimp only
  have hF : genFeatures ((List.range M).map (fun i => first i :: rest i)) = (List.range M).map (fun i => (String.ofList ('s' :: str i), (linspace ((rest i).length + 1), first i :: rest i))) := by
    unfold genFeatures
    apply List.ext_getElem
    · simp
    · intro k h1 h2
      simp
  have hl : (genFeatures ((List.range M).map (fun i => first i :: rest i))).lookup (String.ofList ('s' :: str i)) = some (linspace ((rest i).length + 1), first i :: rest i) := by
    rw [hF]
    refine Score.lookup_of_nodup (p := (String.ofList ('s' :: str i), (linspace ((rest i).length + 1), first i :: rest i))) ?_ (List.mem_map.mpr ⟨i, by simpa using hi, rfl⟩)
    rw [List.map_map]
    refine List.nodup_range.map ?_
    intro a b h
    have := String.ofList_injective h
    simp only [List.cons.injEq, true_and] at this
    exact str_inj this
  obtain ⟨ts, e1, e2, e3⟩ := linspace_cons (n := (rest i).length + 1) (by omega)
  rw [Distances.C58_frames _ _ _ _ _ hl (by rw [e1]; simp; omega), e1]
  simp only [List.zip_cons_cons]
  rw [List.filter_cons_of_pos (by simp), List.filter_eq_nil_iff.mpr]
  · rfl
  · rintro ⟨t, f⟩ hm
    have := e2 t (List.of_mem_zip hm).1
    simp [this]

theorem frameDist_cosVal {d : Nat} (x y : Fin d → ℝ) : frameDist x y = Metrics.cosVal x y := by
  unfold frameDist Metrics.cosVal
  simp only [Metrics.vec_eq_zero]
  rfl

/-- C92: the distance of two items with one frame is the cosine distance of the frames, with and without normalization. -/
theorem C92_distance {d : Nat} (junk : Nat → Nat → ℝ) (normalized : Bool) (x y : Fin d → ℝ) : dtwCosineDistance junk normalized [x] [y] = .ok (some ((frameDist x y : ℝ) : WithTop ℝ)) := by
  unfold dtwCosineDistance Distance.dtwCall
  dsimp only
  rw [if_neg (by simp)]
  have h := Metrics.cosineDistance_real (fun i k => [x].get i k) (fun i k => [y].get i k)
  refine (Distance.withMetric_real h (by simp) (by simp) junk normalized).trans ?_
  rw [frameDist_cosVal]
  have : Distance.ext (fun (i : Fin [x].length) (j : Fin [y].length) => Metrics.cosVal ([x].get i) ([y].get j)) 0 0 = Metrics.cosVal x y := by
    unfold Distance.ext
    rw [dif_pos (by simp)]
    rfl
  cases normalized
  · unfold DTW.dtw DTW.dtwCore
    simp [DTW.costs, DTW.inner, DTW.fillRow, DTW.fillCol, DTW.upd, Except.map]
    exact this
  · unfold DTW.dtw DTW.dtwCore
    simp [DTW.costs, DTW.inner, DTW.fillRow, DTW.fillCol, DTW.upd, DTW.back, Except.map]
    exact this

/-- C92: the complete run of the example with generated features: as in `C92_complete_partial`, and the scores are those of the cosine distances of the first frames of the recordings.
Exact real numbers; missing as there. -/
theorem C92_run_partial {parse : Text → Val} (hparse : ∀ t, parse ('c' :: t) = .str (String.ofList ('c' :: t))) (hs : ∀ t, parse ('s' :: t) = .str (String.ofList ('s' :: t))) (h0 : parse ['0'] = .int 0)
    {base n repeats : Nat} (name : Text) (hb : 2 ≤ base) (hn : 3 ≤ n) (hN : base ^ n * (repeats + 1) ≤ 3535)
    (hfit : base ^ n * (repeats + 1) ≤ 128 ∨ base ^ n * (repeats + 1) ≤ (base ^ (n - 3) * (repeats + 1)) ^ 3) {e : Task.Env} (he : e.Lawful)
    {kind : DBFun Nat → Kind} (hk : IsColumn e (plainArgs (rawOf parse (namedTestitems base n repeats)) 3 ("item".toList :: colNames n) "c0" ["c1"] ["c2"]) kind)
    {c : Pipeline.Choices} (hc : c.Lawful) (hcpu : 0 < c.nCpu) {d : Nat} (first : Nat → Fin d → ℝ) (rest : Nat → List (Fin d → ℝ)) (junk : Nat → Nat → ℝ) (normalized : Bool) :
    ∃ T, fromFile e (oneFile (addExt name) (rawOf parse (namedTestitems base n repeats))) name "c0" ["c1"] ["c2"] [] [] = .ok T ∧
      (∃ F S, Pipeline.Ran c e T (itemFeatures (genFeatures ((List.range (base ^ n * (repeats + 1))).map (fun i => first i :: rest i)))) (dtwCosineDistance junk normalized) distLt F S) ∧
      ∀ F S, Pipeline.Ran c e T (itemFeatures (genFeatures ((List.range (base ^ n * (repeats + 1))).map (fun i => first i :: rest i)))) (dtwCosineDistance junk normalized) distLt F S →
        ∃ (f : H5IO.File Val) (vars : List Var) (outs : List (List OutRow)),
        regFile kind ResultFile.groupName e c.num 0 c.src ⟨[], []⟩ T = .ok f ∧ vars.Perm (plainVars "c0" ["c1"]) ∧ (∃ first g, f.groups.lookup first = some g) ∧
        (∀ num : ℚ → Text, (∀ q, Clean (num q)) → ∀ first g, f.groups.lookup first = some g → ∃ t, ResultFile.analyze num c.sortRows f first F.bys F.byIndex S = .ok t ∧
          Reads t ((vars.map (fun v => (extName v).toList) ++ ["by".toList, "score".toList, "n".toList]) :: outs.flatten.map (cells num))) ∧
        outs.flatten.length = base * (base * (base - 1)) ^ 2 ∧ F.bys.Perm ((List.range base).map (fun z => [named 2 z])) ∧
        List.Forall₂ (fun key out => ∃ abx : Line × Line × Line → ℚ,
          (∀ l : Labels, l.Possible ["c1"] → ∀ t ∈ lineGroup (lineLabel [] "item".toList (colNames n)) "c0" ["c1"] (levelLines (rawOf parse (namedTestitems base n repeats)) 3 ("item".toList :: colNames n) ["c2"] key) l,
            IsFrameAbx first t (abx t)) ∧
          FullTable base ((base ^ (n - 3) * (repeats + 1)) ^ 3) vars key
            (lineGroup (lineLabel [] "item".toList (colNames n)) "c0" ["c1"] (levelLines (rawOf parse (namedTestitems base n repeats)) 3 ("item".toList :: colNames n) ["c2"] key)) abx out) F.bys outs := by
  have hlt : ∀ x y, distLt x y = true → distLt y x = false := by
    intro x y h
    match x, y, h with
    | some x, some y, h =>
      unfold distLt at h ⊢
      simp only [decide_eq_true_eq, decide_eq_false_iff_not] at h ⊢
      exact not_lt_of_gt h
  have hfr : ∀ i < base ^ n * (repeats + 1), itemFeatures (genFeatures ((List.range (base ^ n * (repeats + 1))).map (fun i => first i :: rest i))) (lineRecord parse i) = .ok [first i] :=
    fun i hi => C92_frame hs h0 first rest hi
  obtain ⟨T, hT, hr, h⟩ := C92_complete_partial hparse (base := base) (n := n) (repeats := repeats) name hb hn hN hfit he hk hc hcpu
    (getFeat := itemFeatures (genFeatures ((List.range (base ^ n * (repeats + 1))).map (fun i => first i :: rest i)))) (distance := dtwCosineDistance junk normalized)
    (fun i hi => ⟨_, hfr i hi⟩) (by
      intro i hi j hj v w hv hw
      rw [hfr i hi] at hv
      rw [hfr j hj] at hw
      cases hv; cases hw
      exact ⟨_, C92_distance junk normalized _ _⟩) none (lt := distLt) hlt
  refine ⟨T, hT, hr, ?_⟩
  intro F S hran
  obtain ⟨f, vars, outs, o1, o2, o3, o4, o5, o6, o7⟩ := h F S hran
  refine ⟨f, vars, outs, o1, o2, o3, o4, o5, o6, o7.imp ?_⟩
  rintro key out ⟨abx, ha, ft⟩
  refine ⟨abx, ?_, ft⟩
  intro l hl t ht
  obtain ⟨dA, dB, e1, e2, e3⟩ := ha l hl t ht
  have hmem : t.1 ∈ complete (rawOf parse (namedTestitems base n repeats)) 3 ∧ t.2.1 ∈ complete (rawOf parse (namedTestitems base n repeats)) 3 ∧ t.2.2 ∈ complete (rawOf parse (namedTestitems base n repeats)) 3 := by
    unfold lineGroup lineCell levelLines at ht
    simp only [List.mem_flatMap, List.mem_map, List.mem_filter] at ht
    obtain ⟨A, hA, B, hB, X, hX, rfl⟩ := ht
    exact ⟨hA.1.1, hB.1.1, hX.1.1.1⟩
  have hdist : ∀ p ∈ complete (rawOf parse (namedTestitems base n repeats)) 3, ∀ p' ∈ complete (rawOf parse (namedTestitems base n repeats)) 3,
      ABX.Spec.recDist (itemFeatures (genFeatures ((List.range (base ^ n * (repeats + 1))).map (fun i => first i :: rest i)))) (dtwCosineDistance junk normalized) (record 3 p) (record 3 p') =
        .ok (some ((frameDist (first p.2) (first p'.2) : ℝ) : WithTop ℝ)) := by
    intro p hp p' hp'
    obtain ⟨i, hi, e, hr⟩ := record_named hp
    obtain ⟨i', hi', e', hr'⟩ := record_named hp'
    rw [hr, hr', e, e']
    unfold ABX.Spec.recDist
    rw [hfr i hi, hfr i' hi']
    exact C92_distance junk normalized _ _
  dsimp only at e1 e2
  rw [hdist _ hmem.1 _ hmem.2.2] at e1
  rw [hdist _ hmem.2.1 _ hmem.2.2] at e2
  cases e1; cases e2
  rw [e3]
  have hl' : ∀ x y : ℝ, distLt (some (x : WithTop ℝ)) (some (y : WithTop ℝ)) = true ↔ x < y := by
    intro x y
    unfold distLt
    simp
  refine ⟨?_, ?_, ?_⟩
  · intro hh
    rw [if_pos ((hl' _ _).mpr hh)]
  · intro hh
    rw [if_neg (fun h => absurd ((hl' _ _).mp h) (not_lt_of_gt hh)), if_pos ((hl' _ _).mpr hh)]
  · intro hh
    rw [if_neg (fun h => absurd ((hl' _ _).mp h) (by rw [hh]; exact lt_irrefl _)), if_neg (fun h => absurd ((hl' _ _).mp h) (by rw [hh]; exact lt_irrefl _))]

/-- C92, example: the files of examples/complete_run.py (3 labels, 3 columns, 5 repeats: 162 lines) with any features and distance: the results have 109 lines, and every score is
the mean of 216 triplets -/
example (parse : Text → Val) (hparse : ∀ t, parse ('c' :: t) = .str (String.ofList ('c' :: t))) (k m : Nat) (feat : Nat × List (Option Val) → Nat) (dist : Nat → Nat → Nat) :
    ∃ T, fromFile Task.E0 (oneFile (addExt "data.item".toList) (rawOf parse (namedTestitems 3 3 5))) "data.item".toList "c0" ["c1"] ["c2"] [] [] = .ok T ∧
      ∃ F S, Pipeline.Ran (Pipeline.choices0 (k + 1) (m + 1)) Task.E0 T (fun ρ => .ok (feat ρ)) (fun v w => .ok (dist v w)) (fun x y => decide (x < y)) F S ∧ ∃ rows : List OutRow,
        (∃ (f : H5IO.File Val) (first : String) (t : Text) (head : List Text), ResultFile.analyze (fun _ => []) Task.insArgsort f first F.bys F.byIndex S = .ok t ∧ Reads t (head :: rows.map (cells (fun _ => [])))) ∧
        rows.length = 108 ∧ ∀ o ∈ rows, o.n = 216 ∧ 0 ≤ o.score ∧ o.score ≤ 1 := by
  have hlt : ∀ x y : Nat, decide (x < y) = true → decide (y < x) = false := by intro x y h; simp at h ⊢; omega
  obtain ⟨T, hT, ⟨F, S, hr⟩, h⟩ := C92_complete_partial hparse (base := 3) (n := 3) (repeats := 5) "data.item".toList (by omega) (by omega) (by norm_num) (.inr (by norm_num)) Task.E0_lawful
    (kind := kind0 Task.E0 (plainArgs (rawOf parse (namedTestitems 3 3 5)) 3 ("item".toList :: colNames 3) "c0" ["c1"] ["c2"])) ⟨by (intro f hf; cases hf), fun _ => rfl⟩
    (Pipeline.choices0_lawful (n := k + 1) (m := m + 1) (Nat.zero_lt_succ _)) (Nat.zero_lt_succ _) (getFeat := fun ρ => .ok (feat ρ)) (distance := fun v w => .ok (dist v w))
    (fun _ _ => ⟨_, rfl⟩) (fun _ _ _ _ _ _ _ _ => ⟨_, rfl⟩) 0 (lt := fun x y => decide (x < y)) hlt
  obtain ⟨f, vars, outs, -, -, ⟨first, g, o3⟩, o4, o5, -, o7⟩ := h F S hr
  obtain ⟨t, t1, t2⟩ := o4 (fun _ => []) (fun _ => ⟨by simp, by simp⟩) first g o3
  refine ⟨T, hT, F, S, hr, outs.flatten, ⟨f, first, t, _, t1, t2⟩, o5, ?_⟩
  intro o ho
  obtain ⟨out, hout, hoo⟩ := List.mem_flatten.mp ho
  obtain ⟨key, -, abx, -, ft⟩ := Task.forall₂_mem_right o7 _ hout
  obtain ⟨a, -, b, -, x, -, y, -, -, -, -, -, hn, h0, h1, -⟩ := ft.rows o hoo
  exact ⟨hn, h0, h1⟩

/-- the first lines of the generated file -/
example : (namedTestitems 3 3 5).take 3 = [["#file".toList, "onset".toList, "offset".toList, "#item".toList, "c0".toList, "c1".toList, "c2".toList],
    ["s0".toList, "0".toList, "0".toList, "i0".toList, "c0_v0".toList, "c1_v0".toList, "c2_v0".toList],
    ["s1".toList, "0".toList, "0".toList, "i1".toList, "c0_v1".toList, "c1_v0".toList, "c2_v0".toList]] := by decide +kernel

/-- C92, example: a frame and its opposite have distance 1 -/
example : frameDist (d := 2) (fun _ => 1) (fun _ => -1) = 1 := by
  unfold frameDist
  rw [if_neg (by simp), if_neg (by simp)]
  have : (WithLp.toLp 2 (fun _ => -1) : EuclideanSpace ℝ (Fin 2)) = -(WithLp.toLp 2 (fun _ => 1)) := by
    ext k; simp
  rw [this, InnerProductGeometry.angle_self_neg_of_nonzero, div_self Real.pi_ne_zero]
  intro h
  have := congrFun (congrArg WithLp.ofLp h) 0
  simp at this

#print axioms C92_complete_partial
#print axioms C92_item
#print axioms C92_frame
#print axioms C92_distance
#print axioms C92_run_partial

end ABX.Items
