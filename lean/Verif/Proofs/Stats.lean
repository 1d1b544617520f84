import Verif.Model.Stats
import Verif.Spec.Stats
import Verif.Properties.Task
import Mathlib.Algebra.BigOperators.Group.List.Basic
import Mathlib.Tactic.Ring
/-! The statistics of a level. -/
namespace ABX.Task
open ExtSort SideOps
variable {α β γ κ ρ : Type}

/-! ### sums over groups -/

theorem sum_indicator [BEq κ] [LawfulBEq κ] {ks : List κ} (hn : ks.Nodup) {k : κ} (hk : k ∈ ks) (n : Nat) :
    (ks.map (fun κ => if k == κ then n else 0)).sum = n := by
  induction ks with
  | nil => simp at hk
  | cons a ks ih =>
    rw [List.nodup_cons] at hn
    rw [List.map_cons, List.sum_cons]
    by_cases h : k = a
    · subst h
      have : (ks.map (fun κ => if k == κ then n else 0)).sum = 0 := by
        apply List.sum_eq_zero
        intro x hx
        obtain ⟨b, hb, rfl⟩ := List.mem_map.mp hx
        rw [if_neg]
        intro hh
        rw [eq_of_beq hh] at hn
        exact hn.1 hb
      simp [this]
    · rw [if_neg (by simpa using h), ih hn.2 (by simpa [h] using hk), Nat.zero_add]

/-- a sum over the elements of a list is the sum over the groups of the sums in the groups -/
theorem sum_groups [BEq κ] [LawfulBEq κ] {l : List α} {k : α → κ} {g : α → Nat} {ks : List κ} (hn : ks.Nodup) (hc : ∀ x ∈ l, k x ∈ ks) :
    (ks.map (fun κ => ((l.filter (fun x => k x == κ)).map g).sum)).sum = (l.map g).sum := by
  induction l with
  | nil => simp
  | cons x l ih =>
    rw [List.map_cons, List.sum_cons, ← ih (fun y hy => hc y (by simp [hy])), ← sum_indicator hn (hc x (by simp)) (g x), ← List.sum_map_add]
    congr 1
    apply List.map_congr_left
    intro κ _
    by_cases h : k x = κ
    · simp [h]
    · simp [h]

theorem sum_const {l : List α} {g : α → Nat} {n : Nat} (h : ∀ x ∈ l, g x = n) : (l.map g).sum = l.length * n := by
  rw [List.map_congr_left h]
  simp

theorem pairs_length (l : List α) (P : α → Bool) (Q : α → α → Bool) :
    ((l.flatMap (fun a => l.map (fun b => (a, b)))).filter (fun p => P p.1 && Q p.1 p.2)).length =
      (l.map (fun a => if P a then (l.filter (Q a)).length else 0)).sum := by
  have : ∀ m : List α, ((m.flatMap (fun a => l.map (fun b => (a, b)))).filter (fun p => P p.1 && Q p.1 p.2)).length =
      (m.map (fun a => if P a then (l.filter (Q a)).length else 0)).sum := by
    intro m
    induction m with
    | nil => rfl
    | cons a m ih =>
      rw [List.flatMap_cons, List.filter_append, List.length_append, ih, List.map_cons, List.sum_cons, List.filter_map, List.length_map]
      congr 1
      cases h : P a
      · simp [Function.comp_def, h]
      · simp only [Function.comp_def, h, Bool.true_and, if_true]
  exact this l

theorem triples_length (l : List α) (P : α → Bool) (Q R : α → α → Bool) :
    ((prod3 l l l).filter (fun t => P t.1 && (Q t.1 t.2.1 && R t.1 t.2.2))).length =
      (l.map (fun a => if P a then (l.filter (Q a)).length * (l.filter (R a)).length else 0)).sum := by
  have inner : ∀ (a : α) (m : List α), ((m.flatMap (fun b => l.map (fun x => (a, b, x)))).filter (fun t => P t.1 && (Q t.1 t.2.1 && R t.1 t.2.2))).length =
      if P a then (m.filter (Q a)).length * (l.filter (R a)).length else 0 := by
    intro a m
    induction m with
    | nil => simp
    | cons b m ih =>
      rw [List.flatMap_cons, List.filter_append, List.length_append, ih, List.filter_map, List.length_map, List.filter_cons]
      cases h : P a <;> cases hq : Q a b <;> simp [Function.comp_def, h, hq, Nat.succ_mul, Nat.add_comm]
  have : ∀ m : List α, ((prod3 m l l).filter (fun t => P t.1 && (Q t.1 t.2.1 && R t.1 t.2.2))).length =
      (m.map (fun a => if P a then (l.filter (Q a)).length * (l.filter (R a)).length else 0)).sum := by
    intro m
    induction m with
    | nil => rfl
    | cons a m ih =>
      unfold prod3 at ih ⊢
      rw [List.flatMap_cons, List.filter_append, List.length_append, ih, inner, List.map_cons, List.sum_cons]
  exact this l

/-! ### the filters decided by A -/

section
variable {e : Env} {T : Task ρ} {L : Level ρ} {fs : List (DBFun Bool)} {fr0 : Frame} (H : LevelHyp e T L fs fr0)
include H

theorem pBlock_admits {key : List Val} {p a : Nat × Row} (hp : p ∈ aItems T.on T.across L.frame key) (ha : a ∈ aItems T.on T.across L.frame key) :
    pBlock T.cols T.filters p.2 = Spec.admits T.cols fs a := by
  obtain ⟨hpL, hpk⟩ : p ∈ L.frame ∧ keyOf (T.on :: T.across) p.2 = key := by have := List.mem_filter.mp hp; simpa using this
  obtain ⟨haL, hak⟩ : a ∈ L.frame ∧ keyOf (T.on :: T.across) a.2 = key := by have := List.mem_filter.mp ha; simpa using this
  have hp0 := H.sub hpL
  have ha0 := H.sub haL
  have hpa : p.2 T.on = a.2 T.on ∧ keyOf T.across p.2 = keyOf T.across a.2 := by
    rw [← hak] at hpk; simpa [keyOf] using hpk
  have sby : ∀ r ∈ T.cols.by_, p.2 r = a.2 r := H.fd.by_ p hp0 a ha0
  have son : ∀ r ∈ T.cols.on, p.2 r = a.2 r := H.fd.on p hp0 a ha0 hpa.1
  have sac : ∀ r ∈ T.cols.across, p.2 r = a.2 r := H.fd.across p hp0 a ha0 hpa.2
  have hm := mgr_ok H.mgr
  have hfs : fs = T.filters.map Placed.op := (mgr_ops H.mgr).symm
  have val : ∀ q ∈ T.filters, q.stage = .onAcrossBy → q.op.fn (stageEnv T.cols p.2 p.2 p.2 p.2) = q.op.fn (fun v => a.2 v.1) := by
    intro q hq hs
    have P := hm q hq
    have hav := H.avail q.op (by rw [hfs]; exact List.mem_map_of_mem hq)
    apply q.op.ext
    intro v hv
    have e1 : stageEnv T.cols p.2 p.2 p.2 p.2 v = p.2 v.1 := by unfold stageEnv; split <;> simp
    rw [e1]
    by_cases hb : v.1 ∈ T.cols.by_
    · exact sby _ hb
    have hc := P.hoab hs v hv hb
    have hx := P.hax v hv
    have h12 := P.h12 v hv
    have hab := hav.1 v hv
    obtain ⟨r, x⟩ := v
    cases x <;> simp [condition] at hc hx h12 hab
    all_goals first
      | exact son _ hc
      | exact sac _ hx
      | (rcases h12 with h | h; exacts [son _ h, sac _ h])
      | (rcases hab with h | h | h; exacts [son _ h, sac _ h, sby _ h])
  rw [Bool.eq_iff_iff]
  simp only [pBlock, Spec.admits, List.all_eq_true, Bool.or_eq_true, Bool.not_eq_true']
  constructor
  · intro h f hf
    rw [hfs] at hf
    obtain ⟨q, hq, rfl⟩ := List.mem_map.mp hf
    have P := hm q hq
    have nd : q.stage ≠ .by → q.stage ≠ .onAcrossBy → Spec.decidedByA T.cols q.op = false := by
      intro h1 h2
      rw [← Bool.not_eq_true, Spec.decidedByA, List.all_eq_true]
      intro hall
      by_cases hg : q.stage = .generic
      · obtain ⟨v, hv, hvb⟩ := P.hne h1
        have hn := (P.genV v (P.hgen hg v hv hvb)).2
        have := hall v hv
        simp [hn, hvb] at this
      · obtain ⟨v, hv, hvb, hc⟩ := P.hne2 h1 hg h2
        have := hall v hv
        simp only [condition, Bool.and_eq_true, Bool.not_eq_true'] at hc
        simp [hvb] at this
        obtain ⟨r, x⟩ := v
        cases x <;> simp_all
    by_cases h1 : q.stage = .by
    · right
      have := List.all_eq_true.mp (H.byf a ha0) q.op (mem_ops.mpr ⟨q, hq, h1, rfl⟩)
      exact this
    · by_cases h2 : q.stage = .onAcrossBy
      · right
        rw [← val q hq h2]
        exact h _ (mem_ops.mpr ⟨q, hq, h2, rfl⟩)
      · exact .inl (nd h1 h2)
  · intro h f hf
    obtain ⟨q, hq, hs, rfl⟩ := mem_ops.mp hf
    have P := hm q hq
    rw [val q hq hs]
    rcases h q.op (by rw [hfs]; exact List.mem_map_of_mem hq) with hd | hd
    · exfalso
      rw [← Bool.not_eq_true, Spec.decidedByA, List.all_eq_true] at hd
      apply hd
      intro v hv
      by_cases hb : v.1 ∈ T.cols.by_
      · simp [hb]
      have hc := P.hoab hs v hv hb
      obtain ⟨r, x⟩ := v
      cases x <;> simp_all [condition]
    · exact hd

/-! ### blocks -/

/-- the items with the 'on' label of the block that are not in it -/
def oItems (on : String) (across : List String) (fr : Frame) (key : List Val) : Frame :=
  fr.filter (fun p => keyOf [on] p.2 == key.take 1 && !(keyOf (on :: across) p.2 == key))

/-- the numbers of a block whose row is `row` -/
theorem blockStatsWith_row (approximate : Bool) {key : List Val} (hk : ∃ p ∈ L.frame, keyOf (T.on :: T.across) p.2 = key) {row : Row}
    (hrow : blockRow T L key = .ok ((aItems T.on T.across L.frame key).map (·.1), row)) :
    ∃ n : Nat, blockStatsWith approximate e T L key = .ok (if pBlock T.cols T.filters row then
        ((n : Int), (((aItems T.on T.across L.frame key).length * (oItems T.on T.across L.frame key).length : Nat) : Int),
          (((aItems T.on T.across L.frame key).length * (bItems T.on T.across L.frame key).length : Nat) : Int)) else (0, 0, 0)) ∧
      (approximate = true → T.across.length ≤ 1 → n = (aItems T.on T.across L.frame key).length * (bItems T.on T.across L.frame key).length * (oItems T.on T.across L.frame key).length) ∧
      n ≤ (aItems T.on T.across L.frame key).length * (bItems T.on T.across L.frame key).length * (oItems T.on T.across L.frame key).length ∧
      (¬ T.across.length ≤ 1 → blockStatsWith approximate e T L key = blockStats e T L key) := by
  obtain ⟨IB, IX, hB, hX, hot⟩ := onAcrossTriplets_ok H.lawful H.mgrOK H.availM H.distinctL H.cast H.across H.sizeL row hk
  unfold blockStatsWith blockStats
  simp only [hrow, onAcrossByFilter_ok H.mgrOK H.availM row row row row]
  rw [show ((T.filters.ops .onAcrossBy).all fun f => f.fn (stageEnv T.cols row row row row)) = pBlock T.cols T.filters row from rfl]
  cases hb : pBlock T.cols T.filters row
  · refine ⟨_, rfl, fun _ _ => rfl, Nat.le_refl _, fun _ => rfl⟩
  simp only [if_true]
  obtain ⟨q, hq, hqk⟩ := hk
  have hkey : key = q.2 T.on :: keyOf T.across q.2 := by rw [← hqk]; rfl
  subst hkey
  simp only []
  rw [show groupLabels L.frame [T.on] [q.2 T.on] = .ok ((groupFrame L.frame [T.on] [q.2 T.on]).map (·.1)) from groupLabels_ok ⟨q, hq, rfl⟩,
    show groupLabels L.frame T.across (keyOf T.across q.2) = .ok ((groupFrame L.frame T.across (keyOf T.across q.2)).map (·.1)) from
    groupLabels_ok ⟨q, hq, rfl⟩]
  simp only [List.length_map]
  have hnB : (if T.across = ["#across"] then Except.ok ((L.frame.length : Int) - (groupFrame L.frame [T.on] [q.2 T.on]).length)
      else .ok (((groupFrame L.frame T.across (keyOf T.across q.2)).length : Int) - (aItems T.on T.across L.frame (q.2 T.on :: keyOf T.across q.2)).length)) =
      (Except.ok ((bItems T.on T.across L.frame (q.2 T.on :: keyOf T.across q.2)).length : Int) : Except Err Int) := by
    split
    · rename_i hd
      congr 1
      have : (L.frame.filter (fun _ => true)).length = (groupFrame L.frame [T.on] [q.2 T.on]).length +
          (bItems T.on T.across L.frame (q.2 T.on :: keyOf T.across q.2)).length := by
        unfold groupFrame bItems
        apply filter_length_sub
        intro x _
        rw [hd]
        simp [keyOf]
      rw [List.filter_true] at this
      omega
    · rename_i hd
      congr 1
      have : (groupFrame L.frame T.across (keyOf T.across q.2)).length = (aItems T.on T.across L.frame (q.2 T.on :: keyOf T.across q.2)).length +
          (bItems T.on T.across L.frame (q.2 T.on :: keyOf T.across q.2)).length := by
        unfold groupFrame aItems bItems
        apply filter_length_sub
        intro x _
        simp only [keyOf, List.map_cons, List.map_nil, List.tail_cons, List.take_succ_cons, List.take_zero]
        refine ⟨?_, ?_⟩ <;> rw [Bool.eq_iff_iff] <;> simp [hd] <;> tauto
      omega
  simp only [hnB]
  have hO : ((groupFrame L.frame [T.on] [q.2 T.on]).length : Int) - (aItems T.on T.across L.frame (q.2 T.on :: keyOf T.across q.2)).length =
      ((oItems T.on T.across L.frame (q.2 T.on :: keyOf T.across q.2)).length : Int) := by
    have : (groupFrame L.frame [T.on] [q.2 T.on]).length = (aItems T.on T.across L.frame (q.2 T.on :: keyOf T.across q.2)).length +
        (oItems T.on T.across L.frame (q.2 T.on :: keyOf T.across q.2)).length := by
      unfold groupFrame aItems oItems
      apply filter_length_sub
      intro x _
      simp only [keyOf, List.map_cons, List.map_nil, List.take_succ_cons, List.take_zero]
      by_cases h1 : x.2 T.on = q.2 T.on
      · simp [h1]
      · have h2 : ([x.2 T.on] == [q.2 T.on]) = false := by rw [beq_eq_false_iff_ne]; intro h; exact h1 (List.cons.inj h).1
        have h3 : (x.2 T.on :: List.map x.2 T.across == q.2 T.on :: List.map q.2 T.across) = false := by
          rw [beq_eq_false_iff_ne]; intro h; exact h1 (List.cons.inj h).1
        rw [h2, h3]
        decide
    omega
  rw [hO, hot]
  have hlen : (keyOf T.across q.2).length = T.across.length := by simp [keyOf]
  rw [hlen]
  have hle : (blkOf T.cols T.filters row ((aItems T.on T.across L.frame (q.2 T.on :: keyOf T.across q.2)).filter (pA T.cols T.filters row))
      (IB.filter (pB T.cols T.filters row)) (IX.filter (pX T.cols T.filters row))).trips.length ≤
      (aItems T.on T.across L.frame (q.2 T.on :: keyOf T.across q.2)).length * (bItems T.on T.across L.frame (q.2 T.on :: keyOf T.across q.2)).length *
        (oItems T.on T.across L.frame (q.2 T.on :: keyOf T.across q.2)).length := by
    simp only [blkOf, List.length_map]
    refine Nat.le_trans (List.length_filter_le _ _) ?_
    rw [prod3_length]
    have hXO : (xItems T.on T.across L.frame (q.2 T.on :: keyOf T.across q.2)).length ≤ (oItems T.on T.across L.frame (q.2 T.on :: keyOf T.across q.2)).length := by
      unfold xItems oItems
      rw [← List.countP_eq_length_filter, ← List.countP_eq_length_filter]
      apply List.countP_mono_left
      intro x _ hx
      simp only [Bool.and_eq_true] at hx ⊢
      refine ⟨hx.1, ?_⟩
      rw [Bool.not_eq_true', beq_eq_false_iff_ne]
      intro hxk
      obtain ⟨c, hc⟩ := List.exists_mem_of_ne_nil _ H.across
      have hxc : x.2 c = q.2 c := by
        have : keyOf T.across x.2 = keyOf T.across q.2 := (List.cons.inj hxk).2
        exact List.map_inj_left.mp this c hc
      have hz : (c, q.2 c) ∈ T.across.zip (keyOf T.across q.2) := by
        rw [keyOf, List.zip_map_right, List.mem_map]
        exact ⟨(c, c), by
          rw [List.zip_eq_zipWith, List.zipWith_self, List.mem_map]
          exact ⟨c, hc, rfl⟩, rfl⟩
      have := List.all_eq_true.mp hx.2 _ hz
      simp [hxc] at this
    exact Nat.mul_le_mul (Nat.mul_le_mul (List.length_filter_le _ _) (Nat.le_trans (List.length_filter_le _ _) (Nat.le_of_eq hB.length_eq)))
      (Nat.le_trans (List.length_filter_le _ _) (Nat.le_trans (Nat.le_of_eq hX.length_eq) hXO))
  by_cases hl : T.across.length > 1
  · simp only [hl, decide_true, Bool.not_true, Bool.and_false]
    exact ⟨_, rfl, fun _ h => absurd h (by omega), hle, fun _ => trivial⟩
  · simp only [hl, decide_false, Bool.not_false, Bool.and_true]
    split
    · refine ⟨_, by push_cast; rfl, fun _ _ => rfl, Nat.le_refl _, fun h => absurd (by omega) h⟩
    · rename_i hf
      refine ⟨_, by push_cast; rfl, fun h => ?_, hle, fun h => absurd (by omega) h⟩
      rw [h] at hf
      simp at hf

theorem blockStatsWith_ok (approximate : Bool) (hpos : Positional L.frame) {key : List Val} (hk : ∃ p ∈ L.frame, keyOf (T.on :: T.across) p.2 = key) :
    ∃ p ∈ aItems T.on T.across L.frame key, ∃ n : Nat, blockStatsWith approximate e T L key = .ok (if pBlock T.cols T.filters p.2 then
        ((n : Int), (((aItems T.on T.across L.frame key).length * (oItems T.on T.across L.frame key).length : Nat) : Int),
          (((aItems T.on T.across L.frame key).length * (bItems T.on T.across L.frame key).length : Nat) : Int)) else (0, 0, 0)) ∧
      (approximate = true → T.across.length ≤ 1 → n = (aItems T.on T.across L.frame key).length * (bItems T.on T.across L.frame key).length * (oItems T.on T.across L.frame key).length) ∧
      n ≤ (aItems T.on T.across L.frame key).length * (bItems T.on T.across L.frame key).length * (oItems T.on T.across L.frame key).length ∧
      (¬ T.across.length ≤ 1 → blockStatsWith approximate e T L key = blockStats e T L key) := by
  obtain ⟨p, hp, hrow⟩ := blockRow_ok (T := T) hpos hk
  obtain ⟨n, h⟩ := blockStatsWith_row H approximate hk hrow
  exact ⟨p, hp, n, h⟩

/-- the row of a block: that at the position given by the number of its first item -/
theorem blockRow_head {key : List Val} (hk : ∃ p ∈ L.frame, keyOf (T.on :: T.across) p.2 = key) : ∃ q, (aItems T.on T.across L.frame key).head? = some q ∧
    blockRow T L key = match L.frame[q.1]? with
      | none => .error .indexError
      | some p => .ok ((aItems T.on T.across L.frame key).map (·.1), p.2) := by
  clear H
  unfold blockRow
  rw [groupLabels_ok hk]
  obtain ⟨p, hp1, hp2⟩ := hk
  have hne : p ∈ aItems T.on T.across L.frame key := by simp [aItems, hp1, hp2]
  rw [show groupFrame L.frame (T.on :: T.across) key = aItems T.on T.across L.frame key from rfl]
  cases ha : aItems T.on T.across L.frame key with
  | nil => rw [ha] at hne; cases hne
  | cons q I =>
    refine ⟨q, rfl, ?_⟩
    simp only [List.map_cons, List.getElem?_cons_zero, iloc]
    cases L.frame[q.1]? <;> rfl

/-- the statistics of a level can be computed exactly when the number of the first item of every block is the position of an item; otherwise IndexError
is raised -/
theorem statsOf_iff (hs : L.frame.Pairwise (fun p q => p.1 < q.1)) (approximate : Bool) : ((∃ s, statsOf approximate e T L = .ok s) ↔ ∀ p ∈ L.frame, (∀ q ∈ L.frame, keyOf (T.on :: T.across) q.2 = keyOf (T.on :: T.across) p.2 → p.1 ≤ q.1) →
      p.1 < L.frame.length) ∧ ((∃ s, statsOf approximate e T L = .ok s) ∨ statsOf approximate e T L = .error .indexError) := by
  have hm : ∀ key, key ∈ groupKeys e "stats" (T.on :: T.across) L.frame ↔ ∃ p ∈ L.frame, keyOf (T.on :: T.across) p.2 = key := fun key => mem_groupKeys H.lawful
  have first : ∀ {key q}, (aItems T.on T.across L.frame key).head? = some q → q ∈ L.frame ∧ keyOf (T.on :: T.across) q.2 = key ∧
      ∀ p ∈ L.frame, keyOf (T.on :: T.across) p.2 = keyOf (T.on :: T.across) q.2 → q.1 ≤ p.1 := by
    intro key q hq
    have hmem := List.mem_of_mem_head? hq
    obtain ⟨h1, h2⟩ := List.mem_filter.mp hmem
    have h2 := beq_iff_eq.mp h2
    refine ⟨h1, h2, ?_⟩
    intro p hp hpk
    have hpm : p ∈ aItems T.on T.across L.frame key := List.mem_filter.mpr ⟨hp, beq_iff_eq.mpr (hpk.trans h2)⟩
    have hpw : (aItems T.on T.across L.frame key).Pairwise (fun p q => p.1 < q.1) := hs.filter _
    cases ha : aItems T.on T.across L.frame key with
    | nil => rw [ha] at hpm; cases hpm
    | cons r I =>
      rw [ha] at hq hpm hpw
      cases Option.some.inj hq
      rcases List.mem_cons.mp hpm with rfl | hpI
      · exact Nat.le_refl _
      · exact Nat.le_of_lt ((List.pairwise_cons.mp hpw).1 p hpI)
  have hblock : ∀ key ∈ groupKeys e "stats" (T.on :: T.across) L.frame, ∃ q, (aItems T.on T.across L.frame key).head? = some q ∧
      ((q.1 < L.frame.length ∧ ∃ v, blockStatsWith approximate e T L key = .ok v) ∨ (¬ q.1 < L.frame.length ∧ blockStatsWith approximate e T L key = .error .indexError)) := by
    intro key hkey
    obtain ⟨q, hq, hrow⟩ := blockRow_head H ((hm key).mp hkey)
    refine ⟨q, hq, ?_⟩
    by_cases hlt : q.1 < L.frame.length
    · left
      rw [List.getElem?_eq_getElem hlt] at hrow
      obtain ⟨n, hv, _⟩ := blockStatsWith_row H approximate ((hm key).mp hkey) hrow
      exact ⟨hlt, _, hv⟩
    · right
      rw [List.getElem?_eq_none (by omega)] at hrow
      refine ⟨hlt, ?_⟩
      unfold blockStatsWith
      rw [hrow]
  have hor := sequence_error_of (l := (groupKeys e "stats" (T.on :: T.across) L.frame).map (blockStatsWith approximate e T L)) (P := (· = .indexError)) (by
    intro x hx
    obtain ⟨key, hkey, rfl⟩ := List.mem_map.mp hx
    obtain ⟨q, _, ⟨_, v, hv⟩ | ⟨_, hv⟩⟩ := hblock key hkey
    · exact .inl ⟨v, hv⟩
    · exact .inr ⟨_, hv, rfl⟩)
  have hst : (∃ s, statsOf approximate e T L = .ok s) ↔ ∃ bs, sequence ((groupKeys e "stats" (T.on :: T.across) L.frame).map (blockStatsWith approximate e T L)) = .ok bs := by
    unfold statsOf
    cases sequence ((groupKeys e "stats" (T.on :: T.across) L.frame).map (blockStatsWith approximate e T L)) with
    | error er => constructor <;> (rintro ⟨s, h⟩; cases h)
    | ok bs => exact ⟨fun _ => ⟨bs, rfl⟩, fun _ => ⟨_, rfl⟩⟩
  refine ⟨hst.trans ?_, ?_⟩
  · constructor
    · rintro ⟨bs, hbs⟩ p hp hmin
      have hkey := (hm (keyOf (T.on :: T.across) p.2)).mpr ⟨p, hp, rfl⟩
      obtain ⟨q, hq, h⟩ := hblock _ hkey
      obtain ⟨q1, q2, q3⟩ := first hq
      have : q.1 = p.1 := Nat.le_antisymm (q3 p hp q2.symm) (hmin q q1 q2)
      rw [← this]
      rcases h with ⟨h, _⟩ | ⟨_, h⟩
      · exact h
      · obtain ⟨v, _, hv⟩ := forall₂_mem_left (sequence_inv hbs) (keyOf (T.on :: T.across) p.2) hkey
        rw [h] at hv
        cases hv
    · intro hall
      rcases hor with h | ⟨er, h, rfl⟩
      · exact h
      · exfalso
        obtain ⟨ys, hys, _⟩ := sequence_exists (f := blockStatsWith approximate e T L) (l := groupKeys e "stats" (T.on :: T.across) L.frame) (Q := fun _ _ => True) (by
          intro key hkey
          obtain ⟨q, hq, ⟨_, v, hv⟩ | ⟨hn, _⟩⟩ := hblock key hkey
          · exact ⟨v, hv, trivial⟩
          · obtain ⟨q1, q2, q3⟩ := first hq
            exact absurd (hall q q1 (fun r hr hrk => q3 r hr hrk)) hn)
        rw [h] at hys
        cases hys
  · rcases hor with h | ⟨er, h, rfl⟩
    · exact .inl (hst.mpr h)
    · right
      unfold statsOf
      rw [h]

omit H in
theorem blockStatsWith_false (key : List Val) : blockStatsWith false e T L key = blockStats e T L key := by
  unfold blockStatsWith blockStats
  simp only [Bool.false_or]
  rfl

/-! ### a level -/

/-- what the statistics of a level are, as sums over the items A -/
structure StatsSum (approximate : Bool) (T : Task ρ) (L : Level ρ) (fs : List (DBFun Bool)) (s : LevelStats) : Prop where
  items : s.nbItems = L.frame.length
  on : s.nbOnLevels = (L.frame.map (fun p => keyOf [T.on] p.2)).dedup.length
  across : s.nbAcrossLevels = (L.frame.map (fun p => keyOf T.across p.2)).dedup.length
  onAcross : s.nbOnAcrossLevels = (L.frame.map (fun p => keyOf (T.on :: T.across) p.2)).dedup.length
  onPairs : s.nbOnPairs = (((L.frame.map (fun a => if Spec.admits T.cols fs a then
    (oItems T.on T.across L.frame (keyOf (T.on :: T.across) a.2)).length else 0)).sum : Nat) : Int)
  acrossPairs : s.nbAcrossPairs = (((L.frame.map (fun a => if Spec.admits T.cols fs a then
    (bItems T.on T.across L.frame (keyOf (T.on :: T.across) a.2)).length else 0)).sum : Nat) : Int)
  upper : s.nbTriplets ≤ (((L.frame.map (fun a => if Spec.admits T.cols fs a then
    (bItems T.on T.across L.frame (keyOf (T.on :: T.across) a.2)).length * (oItems T.on T.across L.frame (keyOf (T.on :: T.across) a.2)).length else 0)).sum : Nat) : Int)
  approx : approximate = true → T.across.length ≤ 1 → s.nbTriplets = (((L.frame.map (fun a => if Spec.admits T.cols fs a then
    (bItems T.on T.across L.frame (keyOf (T.on :: T.across) a.2)).length * (oItems T.on T.across L.frame (keyOf (T.on :: T.across) a.2)).length else 0)).sum : Nat) : Int)

/-- a sum over the blocks of a value that is the same for all the items A of a block is a sum over the items A -/
theorem sum_blocks {keys : List (List Val)} (hn : keys.Nodup) (hm : ∀ key, key ∈ keys ↔ ∃ p ∈ L.frame, keyOf (T.on :: T.across) p.2 = key)
    {F : List Val → Nat} {G : List Val → Nat} (hG : ∀ key ∈ keys, ∃ p ∈ aItems T.on T.across L.frame key,
      G key = if pBlock T.cols T.filters p.2 then (aItems T.on T.across L.frame key).length * F key else 0) :
    (keys.map G).sum = (L.frame.map (fun a => if Spec.admits T.cols fs a then F (keyOf (T.on :: T.across) a.2) else 0)).sum := by
  rw [← sum_groups (k := fun p : Nat × Row => keyOf (T.on :: T.across) p.2) hn (fun x hx => (hm _).mpr ⟨x, hx, rfl⟩)]
  congr 1
  apply List.map_congr_left
  intro key hkey
  obtain ⟨p, hp, hg⟩ := hG key hkey
  rw [hg, sum_const (n := if pBlock T.cols T.filters p.2 then F key else 0)]
  · split <;> simp [aItems]
  · intro a ha
    have ha' : a ∈ aItems T.on T.across L.frame key := ha
    rw [← pBlock_admits H hp ha']
    have : keyOf (T.on :: T.across) a.2 = key := by have := List.mem_filter.mp ha'; simpa using this.2
    rw [this]

omit H in
theorem sum_cast (l : List α) (f : α → Int) (g : α → Nat) (h : ∀ x ∈ l, f x = g x) : (l.map f).sum = (((l.map g).sum : Nat) : Int) := by
  induction l with
  | nil => rfl
  | cons x l ih =>
    rw [List.map_cons, List.sum_cons, List.map_cons, List.sum_cons, h x (by simp), ih (fun y hy => h y (by simp [hy]))]
    push_cast; rfl

omit H in
theorem sum_le_of {l : List α} {f g : α → Int} (h : ∀ x ∈ l, f x ≤ g x) : (l.map f).sum ≤ (l.map g).sum := by
  induction l with
  | nil => exact Int.le_refl _
  | cons x l ih =>
    simp only [List.map_cons, List.sum_cons]
    exact Int.add_le_add (h x (by simp)) (ih (fun y hy => h y (by simp [hy])))

theorem statsOf_sum (approximate : Bool) (hpos : Positional L.frame) : ∃ s, statsOf approximate e T L = .ok s ∧ StatsSum approximate T L fs s ∧
    ∃ bs, sequence ((groupKeys e "stats" (T.on :: T.across) L.frame).map (blockStatsWith approximate e T L)) = .ok bs ∧ s.nbTriplets = (bs.map (·.1)).sum := by
  have hm : ∀ key, key ∈ groupKeys e "stats" (T.on :: T.across) L.frame ↔ ∃ p ∈ L.frame, keyOf (T.on :: T.across) p.2 = key := fun key => mem_groupKeys H.lawful
  have hn := nodup_groupKeys H.lawful (site := "stats") (cols := T.on :: T.across) (fr := L.frame)
  have hv : ∀ key : List Val, ∃ v : Int × Int × Int, key ∈ groupKeys e "stats" (T.on :: T.across) L.frame → blockStatsWith approximate e T L key = .ok v := by
    intro key
    by_cases hk : key ∈ groupKeys e "stats" (T.on :: T.across) L.frame
    · obtain ⟨p, _, n, h, _⟩ := blockStatsWith_ok H approximate hpos ((hm key).mp hk)
      exact ⟨_, fun _ => h⟩
    · exact ⟨0, fun h => absurd h hk⟩
  obtain ⟨v, hv⟩ := Classical.axiomOfChoice hv
  have hs : sequence ((groupKeys e "stats" (T.on :: T.across) L.frame).map (blockStatsWith approximate e T L)) =
      .ok ((groupKeys e "stats" (T.on :: T.across) L.frame).map v) := sequence_map_ok hv
  have len : ∀ site cols, (groupKeys e site cols L.frame).length = (L.frame.map (fun p => keyOf cols p.2)).dedup.length := fun site cols =>
    (H.lawful.groups _ _).length_eq
  have hval : ∀ key ∈ groupKeys e "stats" (T.on :: T.across) L.frame, ∃ p ∈ aItems T.on T.across L.frame key, ∃ n : Nat, v key = (if pBlock T.cols T.filters p.2 then
        ((n : Int), (((aItems T.on T.across L.frame key).length * (oItems T.on T.across L.frame key).length : Nat) : Int),
          (((aItems T.on T.across L.frame key).length * (bItems T.on T.across L.frame key).length : Nat) : Int)) else (0, 0, 0)) ∧
      (approximate = true → T.across.length ≤ 1 → n = (aItems T.on T.across L.frame key).length * (bItems T.on T.across L.frame key).length * (oItems T.on T.across L.frame key).length) ∧
      n ≤ (aItems T.on T.across L.frame key).length * (bItems T.on T.across L.frame key).length * (oItems T.on T.across L.frame key).length := by
    intro key hk
    obtain ⟨p, hp, n, h, h2, h3, _⟩ := blockStatsWith_ok H approximate hpos ((hm key).mp hk)
    rw [hv key hk] at h
    exact ⟨p, hp, n, Except.ok.inj h, h2, h3⟩
  refine ⟨_, by unfold statsOf; rw [hs], ⟨rfl, len _ _, len _ _, len _ _, ?_, ?_, ?_, ?_⟩, _, hs, rfl⟩
  · simp only [List.map_map]
    refine (sum_cast _ _ (fun key => ((v key).2.1).toNat) ?_).trans (congrArg Int.ofNat (sum_blocks H (F := fun key => (oItems T.on T.across L.frame key).length) hn hm ?_))
    · intro key hk
      obtain ⟨p, hp, n, h, _⟩ := hval key hk
      simp only [Function.comp_def]
      rw [h]; split <;> simp [-Int.natCast_mul, -Nat.cast_mul]
    · intro key hk
      obtain ⟨p, hp, n, h, _⟩ := hval key hk
      refine ⟨p, hp, ?_⟩
      rw [h]; split <;> simp [-Int.natCast_mul, -Nat.cast_mul]
  · simp only [List.map_map]
    refine (sum_cast _ _ (fun key => ((v key).2.2).toNat) ?_).trans (congrArg Int.ofNat (sum_blocks H (F := fun key => (bItems T.on T.across L.frame key).length) hn hm ?_))
    · intro key hk
      obtain ⟨p, hp, n, h, _⟩ := hval key hk
      simp only [Function.comp_def]
      rw [h]; split <;> simp [-Int.natCast_mul, -Nat.cast_mul]
    · intro key hk
      obtain ⟨p, hp, n, h, _⟩ := hval key hk
      refine ⟨p, hp, ?_⟩
      rw [h]; split <;> simp [-Int.natCast_mul, -Nat.cast_mul]
  · have hG : ∀ key : List Val, ∃ G : Nat, key ∈ groupKeys e "stats" (T.on :: T.across) L.frame → (∃ p ∈ aItems T.on T.across L.frame key,
      G = if pBlock T.cols T.filters p.2 then (aItems T.on T.across L.frame key).length *
        ((bItems T.on T.across L.frame key).length * (oItems T.on T.across L.frame key).length) else 0) ∧ (v key).1 ≤ G := by
      intro key
      by_cases hk : key ∈ groupKeys e "stats" (T.on :: T.across) L.frame
      · obtain ⟨p, hp, n, h, _, h3⟩ := hval key hk
        refine ⟨_, fun _ => ⟨⟨p, hp, rfl⟩, ?_⟩⟩
        rw [h]
        split
        · rw [← Nat.mul_assoc]; exact Int.ofNat_le.mpr h3
        · simp
      · exact ⟨0, fun h => absurd h hk⟩
    obtain ⟨G, hG⟩ := Classical.axiomOfChoice hG
    rw [← sum_blocks H (F := fun key => (bItems T.on T.across L.frame key).length * (oItems T.on T.across L.frame key).length) hn hm
      (fun key hk => (hG key hk).1), ← sum_cast _ (fun key => (G key : Int)) G (fun _ _ => rfl), List.map_map]
    exact sum_le_of (fun key hk => (hG key hk).2)
  · intro happ hl
    simp only [List.map_map]
    refine (sum_cast _ _ (fun key => ((v key).1).toNat) ?_).trans (congrArg Int.ofNat (sum_blocks H
      (F := fun key => (bItems T.on T.across L.frame key).length * (oItems T.on T.across L.frame key).length) hn hm ?_))
    · intro key hk
      obtain ⟨p, hp, n, h, _⟩ := hval key hk
      simp only [Function.comp_def]
      rw [h]; split <;> simp [-Int.natCast_mul, -Nat.cast_mul]
    · intro key hk
      obtain ⟨p, hp, n, h, h2, _⟩ := hval key hk
      refine ⟨p, hp, ?_⟩
      rw [h, h2 happ hl, Nat.mul_assoc]; split <;> simp [-Int.natCast_mul, -Nat.cast_mul]

/-! ### the candidates of an item -/

theorem bItems_eq {a : Nat × Row} (ha : a ∈ L.frame) : bItems T.on T.across L.frame (keyOf (T.on :: T.across) a.2) =
    L.frame.filter (fun b => b.2 T.on != a.2 T.on && (userAcross T.across).all (fun c => b.2 c == a.2 c)) := by
  unfold bItems userAcross
  apply List.filter_congr
  intro b hb
  rw [Bool.eq_iff_iff]
  by_cases hd : T.across = ["#across"]
  · rw [if_pos hd, hd]
    simp [keyOf]
  · rw [if_neg hd]
    simp only [keyOf, List.map_cons, List.tail_cons, List.take_succ_cons, List.take_zero, List.map_nil, Bool.and_eq_true, Bool.or_eq_true, beq_iff_eq, hd, false_or,
      Bool.not_eq_true', beq_eq_false_iff_ne, bne_iff_ne, List.all_eq_true, List.map_inj_left]
    constructor
    · rintro ⟨h1, h2⟩; exact ⟨fun h => h2 (by rw [h]), h1⟩
    · rintro ⟨h1, h2⟩; exact ⟨h2, fun h => h1 (List.cons.inj h).1⟩

theorem oItems_eq {a : Nat × Row} (ha : a ∈ L.frame) : oItems T.on T.across L.frame (keyOf (T.on :: T.across) a.2) =
    L.frame.filter (fun x => x.2 T.on == a.2 T.on && (if (userAcross T.across).isEmpty then x.1 != a.1 else (userAcross T.across).any (fun c => x.2 c != a.2 c))) := by
  unfold oItems userAcross
  apply List.filter_congr
  intro x hx
  rw [Bool.eq_iff_iff]
  by_cases hd : T.across = ["#across"]
  · rw [if_pos hd, hd]
    have hl : (x.2 "#across" = a.2 "#across") ↔ x.1 = a.1 := by
      constructor
      · exact H.dum hd x (H.sub hx) a (H.sub ha)
      · intro h; rw [H.distinctL.inj hx ha h]
    simp [keyOf]
    intro h
    rw [hl]
    simp [h]
  · rw [if_neg hd, if_neg (by simpa using H.across)]
    simp only [keyOf, List.map_cons, List.take_succ_cons, List.take_zero, List.map_nil, Bool.and_eq_true, beq_iff_eq,
      Bool.not_eq_true', beq_eq_false_iff_ne, bne_iff_ne, List.any_eq_true]
    have hk : T.across.map x.2 = T.across.map a.2 ↔ ∀ c ∈ T.across, x.2 c = a.2 c := List.map_inj_left
    constructor
    · rintro ⟨h1, h2⟩
      have h1 := (List.cons.inj h1).1
      refine ⟨h1, ?_⟩
      by_contra hn
      apply h2
      rw [h1, hk.mpr]
      intro c hc
      by_contra h3
      exact hn ⟨c, hc, h3⟩
    · rintro ⟨h1, c, hc, h2⟩
      refine ⟨by rw [h1], ?_⟩
      intro h
      exact h2 (hk.mp (List.cons.inj h).2 c hc)

end

/-! ### a level of a task -/

theorem admits_sim {cols : List String} {c : Cols} {fs : List (DBFun Bool)} (hfs : ∀ f ∈ fs, ∀ v ∈ f.inputs, v.1 ∈ cols) {p q : Nat × Row} (h : Sim cols p q) :
    Spec.admits c fs p = Spec.admits c fs q := by
  unfold Spec.admits
  rw [Bool.eq_iff_iff]
  simp only [List.all_eq_true]
  have : ∀ f ∈ fs, f.fn (fun v => p.2 v.1) = f.fn (fun v => q.2 v.1) := fun f hf => f.ext _ _ (fun v hv => h.2 _ (hfs f hf v hv))
  constructor
  · intro hh f hf; rw [← this f hf]; exact hh f hf
  · intro hh f hf; rw [this f hf]; exact hh f hf

theorem pairs_sim {cols : List String} {l l' : List (Nat × Row)} (h : List.Forall₂ (Sim cols) l l') :
    List.Forall₂ (fun p q => Sim cols p.1 q.1 ∧ Sim cols p.2 q.2) (Spec.itemPairs l) (Spec.itemPairs l') := by
  unfold Spec.itemPairs
  exact forall₂_flatMap (fun a a' ha => forall₂_map (fun b b' hb => ⟨ha, hb⟩) h) h

theorem labels_sim {cols : List String} {l l' : List (Nat × Row)} (h : List.Forall₂ (Sim cols) l l') {cs : List String} (hc : ∀ c ∈ cs, c ∈ cols) :
    (l.map (fun p => keyOf cs p.2)).dedup.length = Spec.nbLabels cs l' := by
  unfold Spec.nbLabels
  congr 2
  refine forall₂_map_eq h ?_
  intro p q hpq
  exact List.map_congr_left (fun c hc' => hpq.2 c (hc c hc'))

theorem init_across' {e : Env} {a : Args ρ} {T : Task ρ} (h : init e a = .ok T) : T.across = if a.across = [] then ["#across"] else a.across := by
  rw [(init_ok h).2.2.2.1]
  by_cases hb : a.across = []
  · rw [(prep_across a hb).1, if_pos hb]
  · rw [prep_across' a hb, if_neg hb]

theorem seq_zip {κ β : Type} {f : κ → Except Err β} : ∀ {ks : List κ} {bs : List β}, sequence (ks.map f) = .ok bs →
    sequence (ks.map (fun k => (f k).map (fun s => (k, s)))) = .ok (ks.zip bs)
  | [], bs, h => by cases h; rfl
  | k :: ks, bs, h => by
    have hF := sequence_inv h
    cases hF with
    | @cons _ b _ bs' h1 h2 =>
      have h3 : sequence (ks.map f) = .ok bs' := by
        have := h
        simp only [List.map_cons, h1, sequence] at this
        cases hs : sequence (ks.map f) with
        | error er => rw [hs] at this; cases this
        | ok cs => rw [hs] at this; simpa using this
      have ih := seq_zip h3
      simp only [List.map_cons, h1, sequence, Except.map] at ih ⊢
      rw [ih]
      rfl

theorem all_congr_mem {l : List α} {f g : α → Bool} (h : ∀ x ∈ l, f x = g x) : l.all f = l.all g := by
  induction l with
  | nil => rfl
  | cons x l ih => rw [List.all_cons, List.all_cons, h x (by simp), ih (fun y hy => h y (by simp [hy]))]

theorem any_congr_mem {l : List α} {f g : α → Bool} (h : ∀ x ∈ l, f x = g x) : l.any f = l.any g := by
  induction l with
  | nil => rfl
  | cons x l ih => rw [List.any_cons, List.any_cons, h x (by simp), ih (fun y hy => h y (by simp [hy]))]

theorem legal_split {on : String} {across : List String} (hl : across.length ≤ 1) (a b x : Nat × Row) : Spec.legal on across a b x =
    ((b.2 on != a.2 on && across.all (fun col => b.2 col == a.2 col)) && (x.2 on == a.2 on &&
      (if across.isEmpty then x.1 != a.1 else across.any (fun col => x.2 col != a.2 col)))) := by
  unfold Spec.legal
  have h1 : (a.2 on == x.2 on) = (x.2 on == a.2 on) := BEq.comm
  rw [h1]
  match across, hl with
  | [], _ =>
    simp only [List.all_nil, Bool.and_true, List.isEmpty_nil, if_true]
    generalize (x.2 on == a.2 on) = p, (b.2 on != a.2 on) = q, (x.1 != a.1) = r
    revert p q r
    decide
  | [c], _ =>
    simp only [List.all_cons, List.all_nil, List.any_cons, List.any_nil, Bool.and_true, Bool.or_false, List.isEmpty_cons, Bool.false_eq_true, if_false]
    generalize (x.2 on == a.2 on) = p, (b.2 on != a.2 on) = q, (b.2 c == a.2 c) = r, (x.2 c != a.2 c) = s
    revert p q r s
    decide
  | _ :: _ :: _, hl => simp at hl

/-- the statistics of a level of a task -/
structure StatsSpec (approximate : Bool) (a : Args ρ) (key : List Val) (s : LevelStats) : Prop where
  items : s.nbItems = (keptOf a key).length
  on : s.nbOnLevels = Spec.nbLabels [a.on] (keptOf a key)
  across : s.nbAcrossLevels = if a.across = [] then (keptOf a key).length else Spec.nbLabels a.across (keptOf a key)
  onAcross : s.nbOnAcrossLevels = if a.across = [] then (keptOf a key).length else Spec.nbLabels (a.on :: a.across) (keptOf a key)
  acrossPairs : s.nbAcrossPairs = ((Spec.pairsAB a.cols a.on a.across a.filters (keptOf a key)).length : Nat)
  onPairs : s.nbOnPairs = ((Spec.pairsSomeAX a.cols a.on a.across a.filters (keptOf a key)).length : Nat)
  exact : approximate = false ∨ 1 < a.across.length → s.nbTriplets = ((tripsSpec a key).length : Nat)
  approx : approximate = true → a.across.length ≤ 1 → s.nbTriplets = ((Spec.admittedTriplets a.cols a.on a.across a.filters (keptOf a key)).length : Nat)

theorem statsOf_main {e : Env} (he : e.Lawful) {a : Args ρ} (ha : a.OK) (hb : Spec'.KeptFirst a) {T : Task ρ} (h : init e a = .ok T)
    {L : Level ρ} (hL : L ∈ T.levels) (approximate : Bool) : ∃ s, statsOf approximate e T L = .ok s ∧ StatsSpec approximate a L.key s := by
  obtain ⟨fr0, I⟩ := init_level he ha h hL
  obtain ⟨c1, c2, c3, c4⟩ := checkDatabase_ok (init_ok h).1
  have hpos := positional he ha hb h hL
  have H := I.hyp
  have hacr := init_across' h
  obtain ⟨s, hs, S, bs, hbs, hsum⟩ := statsOf_sum H approximate hpos
  have sim := frame_kept ha h I
  have hlen : L.frame.length = (keptOf a L.key).length := sim.length_eq
  have hna : a.across ≠ [] → T.across = a.across ∧ a.across ≠ ["#across"] := by
    intro hne
    rw [if_neg hne] at hacr
    exact ⟨hacr, fun h' => (c4 "#across" (c2 _ (by rw [h']; simp))).2 rfl⟩
  have hnd : ∀ cs : List String, T.across = ["#across"] → "#across" ∈ cs → (L.frame.map (fun p => keyOf cs p.2)).dedup.length = L.frame.length := by
    intro cs hd hc
    rw [List.Nodup.dedup, List.length_map]
    refine (List.nodup_map_iff_inj_on ?_).mpr ?_
    · exact List.Nodup.of_map _ H.distinctL
    · intro p hp q hq hpq
      exact H.distinctL.inj hp hq (H.dum hd p (H.sub hp) q (H.sub hq) (List.map_inj_left.mp hpq _ hc))
  refine ⟨s, hs, ⟨S.items.trans hlen, ?_, ?_, ?_, ?_, ?_, ?_, ?_⟩⟩
  · rw [S.on, I.on]
    exact labels_sim sim (by simpa using c1)
  · rw [S.across]
    split
    · rename_i hne
      rw [if_pos hne] at hacr
      rw [hnd _ hacr (by simp [hacr]), hlen]
    · rename_i hne
      rw [(hna hne).1]
      exact labels_sim sim c2
  · rw [S.onAcross]
    split
    · rename_i hne
      rw [if_pos hne] at hacr
      rw [hnd _ hacr (by simp [hacr]), hlen]
    · rename_i hne
      rw [(hna hne).1, I.on]
      refine labels_sim sim ?_
      intro c hc
      rcases List.mem_cons.mp hc with rfl | hc
      · exact c1
      · exact c2 c hc
  · rw [S.acrossPairs]
    refine congrArg Int.ofNat ?_
    have e1 : (Spec.pairsAB a.cols a.on a.across a.filters (keptOf a L.key)).length = (Spec.pairsAB a.cols a.on a.across a.filters L.frame).length := by
      refine (List.Forall₂.length_eq (forall₂_filter ?_ (pairs_sim sim))).symm
      rintro p q ⟨h1, h2⟩
      rw [admits_sim ha.inF h1, h1.2 _ c1, h2.2 _ c1]
      congr 2
      exact all_congr_mem (fun c hc => by rw [h1.2 c (c2 c hc), h2.2 c (c2 c hc)])
    rw [e1]
    have := pairs_length L.frame (Spec.admits a.cols a.filters) (fun a' b => b.2 a.on != a'.2 a.on && a.across.all (fun col => b.2 col == a'.2 col))
    unfold Spec.pairsAB Spec.itemPairs
    rw [this, I.cols]
    congr 1
    apply List.map_congr_left
    intro x hx
    rw [bItems_eq H hx, I.on, I.across]
  · rw [S.onPairs]
    refine congrArg Int.ofNat ?_
    have e1 : (Spec.pairsSomeAX a.cols a.on a.across a.filters (keptOf a L.key)).length = (Spec.pairsSomeAX a.cols a.on a.across a.filters L.frame).length := by
      refine (List.Forall₂.length_eq (forall₂_filter ?_ (pairs_sim sim))).symm
      rintro p q ⟨h1, h2⟩
      rw [admits_sim ha.inF h1, h1.2 _ c1, h2.2 _ c1, h1.1, h2.1]
      congr 3
      exact any_congr_mem (fun c hc => by rw [h1.2 c (c2 c hc), h2.2 c (c2 c hc)])
    rw [e1]
    have := pairs_length L.frame (Spec.admits a.cols a.filters) (fun a' x => x.2 a.on == a'.2 a.on &&
      (if a.across.isEmpty then x.1 != a'.1 else a.across.any (fun col => x.2 col != a'.2 col)))
    unfold Spec.pairsSomeAX Spec.itemPairs
    rw [this, I.cols]
    congr 1
    apply List.map_congr_left
    intro x hx
    rw [oItems_eq H hx, I.on, I.across]
  · intro happ
    have hbl : ∀ key ∈ groupKeys e "stats" (T.on :: T.across) L.frame, blockStatsWith approximate e T L key = blockStats e T L key := by
      intro key hk
      rcases happ with rfl | happ
      · exact blockStatsWith_false key
      · obtain ⟨_, _, _, _, _, _, h4⟩ := blockStatsWith_ok H approximate hpos ((mem_groupKeys H.lawful).mp hk)
        apply h4
        rw [(hna (by intro h'; simp [h'] at happ)).1]
        omega
    have h3 := (C03_spec he ha hb h).2 L hL
    unfold levelNbTriplets levelStats at h3
    have hseq : sequence ((groupKeys e "stats" (T.on :: T.across) L.frame).map (fun k => (blockStats e T L k).map (fun s => (k, s)))) =
        .ok ((groupKeys e "stats" (T.on :: T.across) L.frame).zip bs) := by
      rw [List.map_congr_left hbl] at hbs
      exact seq_zip hbs
    rw [hseq] at h3
    simp only [Except.map, Except.ok.injEq] at h3
    rw [hsum, ← h3]
    congr 1
    have hl : bs.length = (groupKeys e "stats" (T.on :: T.across) L.frame).length := ((sequence_inv hbs).length_eq).symm
    rw [show (fun p : List Val × Int × Int × Int => p.2.1) = (fun s : Int × Int × Int => s.1) ∘ Prod.snd from rfl, ← List.map_map,
      List.map_snd_zip (by omega)]
  · intro happ hl
    have hlT : T.across.length ≤ 1 := by
      rw [hacr]; split
      · simp
      · exact hl
    rw [S.approx happ hlT]
    refine congrArg Int.ofNat ?_
    have e1 : (Spec.admittedTriplets a.cols a.on a.across a.filters (keptOf a L.key)).length = (Spec.admittedTriplets a.cols a.on a.across a.filters L.frame).length := by
      refine (List.Forall₂.length_eq (forall₂_filter ?_ (triples_sim sim))).symm
      intro t u htu
      rw [admits_sim ha.inF htu.1, legal_sim c1 c2 htu]
    rw [e1]
    have := triples_length L.frame (Spec.admits a.cols a.filters) (fun a' b => b.2 a.on != a'.2 a.on && a.across.all (fun col => b.2 col == a'.2 col))
      (fun a' x => x.2 a.on == a'.2 a.on && (if a.across.isEmpty then x.1 != a'.1 else a.across.any (fun col => x.2 col != a'.2 col)))
    have e2 : Spec.admittedTriplets a.cols a.on a.across a.filters L.frame = (prod3 L.frame L.frame L.frame).filter (fun t => Spec.admits a.cols a.filters t.1 &&
        ((t.2.1.2 a.on != t.1.2 a.on && a.across.all (fun col => t.2.1.2 col == t.1.2 col)) && (t.2.2.2 a.on == t.1.2 a.on &&
          (if a.across.isEmpty then t.2.2.1 != t.1.1 else a.across.any (fun col => t.2.2.2 col != t.1.2 col))))) := by
      unfold Spec.admittedTriplets
      show (prod3 _ _ _).filter _ = _
      apply List.filter_congr
      intro t _
      congr 1
      exact legal_split hl _ _ _
    rw [e2, this, I.cols]
    congr 1
    apply List.map_congr_left
    intro x hx
    rw [bItems_eq H hx, oItems_eq H hx, I.on, I.across]

end ABX.Task
