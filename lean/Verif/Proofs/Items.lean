import Verif.Model.Items
import Verif.Properties.Verify
import Verif.Properties.FromFile
/-!
Specification and lemmas of Properties/Items.lean.
-/
namespace ABX.Items
open Database (Text)



theorem digitChar_inj {a b : Nat} (ha : a < 10) (hb : b < 10) (h : a.digitChar = b.digitChar) : a = b := by
  have h1 := Nat.toNat_digitChar_of_lt_ten ha
  have h2 := Nat.toNat_digitChar_of_lt_ten hb
  rw [h] at h1
  omega

theorem str_ne (n : Nat) : str n ≠ [] := List.length_pos_iff.mp Nat.length_toDigits_pos

theorem str_inj : ∀ {a b : Nat}, str a = str b → a = b := by
  intro a
  induction a using Nat.strong_induction_on with
  | _ a ih =>
    intro b h
    unfold str at h ih
    rw [Nat.toDigits_eq_if (n := a) (by decide), Nat.toDigits_eq_if (n := b) (by decide)] at h
    by_cases h1 : a < 10 <;> by_cases h2 : b < 10
    · rw [if_pos h1, if_pos h2] at h
      exact digitChar_inj h1 h2 (by simpa using h)
    · rw [if_pos h1, if_neg h2] at h
      have := congrArg List.length h
      have h3 := @Nat.length_toDigits_pos 10 (b / 10)
      simp at this
    · rw [if_neg h1, if_pos h2] at h
      have := congrArg List.length h
      have h3 := @Nat.length_toDigits_pos 10 (a / 10)
      simp at this
    · rw [if_neg h1, if_neg h2] at h
      obtain ⟨e1, e2⟩ := List.append_inj' h rfl
      have := ih (a / 10) (by omega) e1
      have := digitChar_inj (Nat.mod_lt _ (by decide)) (Nat.mod_lt _ (by decide)) (List.singleton_inj.mp e2)
      omega

theorem str_digit {n : Nat} {c : Char} (h : c ∈ str n) : c.isDigit = true := Nat.isDigit_of_mem_toDigits (by decide) (by decide) h

/-- the base digits of a number, lowest first -/
def digs (base : Nat) : Nat → Nat → List Nat
  | 0, _ => []
  | n + 1, i => i % base :: digs base n (i / base)

def undigs (base : Nat) : List Nat → Nat
  | [] => 0
  | d :: ds => d + base * undigs base ds

theorem digs_eq (base : Nat) : ∀ n i, (List.range n).map (fun j => i / base ^ j % base) = digs base n i
  | 0, _ => rfl
  | n + 1, i => by
    rw [List.range_succ_eq_map, List.map_cons, List.map_map, digs, ← digs_eq base n (i / base)]
    simp only [pow_zero, Nat.div_one, List.cons.injEq, true_and]
    apply List.map_congr_left
    intro j _
    simp only [Function.comp, Nat.succ_eq_add_one]
    rw [Nat.div_div_eq_div_mul, pow_succ, Nat.mul_comm]

theorem digs_undigs {base : Nat} : ∀ ds : List Nat, (∀ d ∈ ds, d < base) → digs base ds.length (undigs base ds) = ds
  | [], _ => rfl
  | d :: ds, h => by
    have hd := h d (by simp)
    rw [List.length_cons, digs, undigs, Nat.add_mul_mod_self_left, Nat.mod_eq_of_lt hd, Nat.add_mul_div_left _ _ (by omega), Nat.div_eq_of_lt hd, Nat.zero_add,
      digs_undigs ds (fun d hd => h d (by simp [hd]))]

theorem undigs_lt {base : Nat} : ∀ ds : List Nat, (∀ d ∈ ds, d < base) → undigs base ds < base ^ ds.length
  | [], _ => by simp [undigs]
  | d :: ds, h => by
    have hd := h d (by simp)
    have ih := undigs_lt ds (fun d hd => h d (by simp [hd]))
    rw [List.length_cons, undigs, pow_succ, Nat.mul_comm _ base]
    calc d + base * undigs base ds < base + base * undigs base ds := by omega
      _ = base * (undigs base ds + 1) := by rw [Nat.mul_add, Nat.mul_one, Nat.add_comm]
      _ ≤ base * base ^ ds.length := Nat.mul_le_mul_left _ ih

theorem undigs_digs (base : Nat) : ∀ n i, undigs base (digs base n i) = i % base ^ n
  | 0, i => by simp [digs, undigs, Nat.mod_one]
  | n + 1, i => by
    rw [digs, undigs, undigs_digs base n, pow_succ, Nat.mul_comm _ base, Nat.mod_mul]

theorem digs_length (base : Nat) : ∀ n i, (digs base n i).length = n
  | 0, _ => rfl
  | n + 1, i => by simp [digs, digs_length base n]

theorem digs_eq_iff {base n i : Nat} {ds : List Nat} (hl : ds.length = n) (hd : ∀ d ∈ ds, d < base) : digs base n i = ds ↔ i % base ^ n = undigs base ds := by
  constructor
  · rintro rfl
    exact (undigs_digs base n i).symm
  · intro h
    by_cases hb : base = 0
    · subst hb
      cases ds with
      | nil => simp at hl; subst hl; rfl
      | cons d ds => exact absurd (hd d (by simp)) (by omega)
    · have h1 : digs base n (i % base ^ n) = digs base n i := by
        rw [← digs_eq, ← digs_eq]
        apply List.map_congr_left
        intro j hj
        have hj : j < n := by simpa using hj
        have : base ^ n = base ^ j * base ^ (n - j) := by rw [← pow_add]; congr 1; omega
        rw [this, Nat.mod_mul_right_div_self, Nat.mod_mod_of_dvd]
        exact dvd_pow_self _ (by omega)
      rw [← h1, h, ← hl]
      exact digs_undigs ds hd

/-- each remainder occurs k times below m k -/
theorem count_mod {m v : Nat} (hv : v < m) : ∀ k, ((List.range (m * k)).map (· % m)).count v = k
  | 0 => by simp
  | k + 1 => by
    rw [Nat.mul_succ, List.range_add, List.map_append, List.count_append, count_mod hv k, List.map_map]
    congr 1
    have : (List.range m).map ((fun x => x % m) ∘ fun x => m * k + x) = List.range m := by
      conv_rhs => rw [← List.map_id (List.range m)]
      apply List.map_congr_left
      intro i hi
      simp only [Function.comp, Nat.mul_add_mod, id]
      exact Nat.mod_eq_of_lt (by simpa using hi)
    rw [this]
    exact List.count_eq_one_of_mem List.nodup_range (by simpa using hv)

/-- the labels of the lines of a table -/
def labels (t : List (List Text)) : List (List Text) := t.tail.map (·.drop 4)

theorem table_tail (f : Nat → Nat → Text) (base n repeats : Nat) :
    (table f base n repeats).tail = (List.range (base ^ n * (repeats + 1))).map (fun i => (List.range (n + 4)).map (f (i + 1))) := by
  unfold table
  rw [List.range_succ_eq_map (n := base ^ n * (repeats + 1)), List.map_cons, List.tail_cons, List.map_map]
  rfl

theorem labels_table (f : Nat → Nat → Text) (base n repeats : Nat) :
    labels (table f base n repeats) = (List.range (base ^ n * (repeats + 1))).map (fun i => (List.range n).map (fun j => f (i + 1) (j + 4))) := by
  unfold labels
  rw [table_tail, List.map_map]
  apply List.map_congr_left
  intro i _
  simp only [Function.comp]
  rw [Nat.add_comm n 4, List.range_add, List.map_append, List.drop_append_of_le_length (by simp)]
  rw [List.drop_eq_nil_of_le (by simp), List.nil_append, List.map_map]
  apply List.map_congr_left
  intro j _
  simp [Function.comp, Nat.add_comm]

theorem factorial {f : Nat → Nat → Text} {g : Nat → Nat → Text} (hf : ∀ i j, f (i + 1) (j + 4) = g j (i / base ^ j % base)) (hg : ∀ j a b, g j a = g j b → a = b)
    {n repeats : Nat} {ds : List Nat} (hl : ds.length = n) (hd : ∀ d ∈ ds, d < base) :
    (labels (table f base n repeats)).count (ds.zipIdx.map (fun p => g p.2 p.1)) = repeats + 1 := by
  rw [labels_table]
  have hrow : ∀ i, (List.range n).map (fun j => f (i + 1) (j + 4)) = ((digs base n i).zipIdx).map (fun p => g p.2 p.1) := by
    intro i
    rw [← digs_eq]
    apply List.ext_getElem
    · simp
    · intro j h1 h2
      simp [hf]
  have hinj : ∀ l l' : List Nat, l.length = l'.length → l.zipIdx.map (fun p => g p.2 p.1) = l'.zipIdx.map (fun p => g p.2 p.1) → l = l' := by
    intro l l' hll h
    apply List.ext_getElem hll
    intro j h1 h2
    have := congrArg (fun l => l[j]?) h
    simp only [List.getElem?_map, List.getElem?_zipIdx, List.getElem?_eq_getElem h1, List.getElem?_eq_getElem h2, Option.map_some, Option.some.injEq] at this
    exact hg _ _ _ this
  simp only [hrow]
  have hc := count_mod (undigs_lt ds hd) (repeats + 1)
  rw [hl] at hc
  refine Eq.trans ?_ hc
  rw [List.count_eq_length_filter, List.count_eq_length_filter, List.filter_map, List.filter_map, List.length_map, List.length_map]
  congr 1
  apply List.filter_congr
  intro i _
  simp only [Function.comp]
  rw [Bool.eq_iff_iff, beq_iff_eq, beq_iff_eq]
  rw [← digs_eq_iff hl hd]
  constructor
  · intro h
    exact hinj _ _ (by rw [digs_length, hl]) h
  · intro h; rw [h]

theorem range_cells {f : Nat → Nat → Text} {g : Nat → Nat → Text} (hf : ∀ i j, f (i + 1) (j + 4) = g j (i / base ^ j % base))
    {n repeats : Nat} : ∀ l ∈ labels (table f base n repeats), ∃ ds : List Nat, ds.length = n ∧ (∀ d ∈ ds, d < base) ∧ l = ds.zipIdx.map (fun p => g p.2 p.1) := by
  rw [labels_table]
  intro l hl
  obtain ⟨i, hi, rfl⟩ := List.mem_map.mp hl
  have hi : i < base ^ n * (repeats + 1) := by simpa using hi
  refine ⟨digs base n i, digs_length _ _ _, ?_, ?_⟩
  · intro d hd
    rw [← digs_eq] at hd
    obtain ⟨j, hj, rfl⟩ := List.mem_map.mp hd
    apply Nat.mod_lt
    apply Nat.pos_of_ne_zero
    rintro rfl
    have : n ≠ 0 := by rintro rfl; simp at hj
    rw [zero_pow this] at hi
    simp at hi
  · rw [← digs_eq]
    apply List.ext_getElem
    · simp
    · intro j h1 h2
      simp [hf]

theorem named_inj (j a b : Nat) (h : 'c' :: str j ++ '_' :: 'v' :: str a = 'c' :: str j ++ '_' :: 'v' :: str b) : a = b := by
  have := List.append_cancel_left h
  simp only [List.cons.injEq, true_and] at this
  exact str_inj this

/-- the label columns 'c0', 'c1', ... -/
def colNames (n : Nat) : List Text := (List.range n).map (fun j => 'c' :: str j)

theorem table_head (f : Nat → Nat → Text) (fourth : Text) (h : ∀ j, f 0 j = if j < 4 then head4 ('#' :: fourth) j else 'c' :: str (j - 4)) (base n repeats : Nat) :
    (table f base n repeats).head? = some ("#file".toList :: "onset".toList :: "offset".toList :: ('#' :: fourth) :: colNames n) := by
  unfold table
  rw [List.range_succ_eq_map (n := base ^ n * (repeats + 1)), List.map_cons, List.head?_cons, Option.some.injEq, Nat.add_comm n 4, List.range_add, List.map_append, List.map_map]
  have h4 : (List.range 4).map (f 0) = ["#file".toList, "onset".toList, "offset".toList, '#' :: fourth] := by
    simp [List.range_succ, h, head4]
  rw [h4]
  simp only [List.cons_append, List.nil_append, List.cons.injEq, true_and]
  unfold colNames
  apply List.map_congr_left
  intro j _
  simp [Function.comp, h]

/-- what pandas reads in a generated file; `parse` is the conversion of a field -/
def rawOf (parse : Text → Val) (t : List (List Text)) : Database.Raw Val := ⟨t.headD [], t.tail.map (fun r => r.map (fun c => some (parse c)))⟩

theorem str_chars {n : Nat} {c : Char} (h : c ∈ str n) : c ≠ ' ' ∧ c ≠ '#' ∧ c ≠ '_' ∧ c ≠ '\n' ∧ ¬ Verify.Spec.Space c := by
  have := str_digit h
  refine ⟨?_, ?_, ?_, ?_, ?_⟩
  · rintro rfl; exact absurd this (by decide)
  · rintro rfl; exact absurd this (by decide)
  · rintro rfl; exact absurd this (by decide)
  · rintro rfl; exact absurd this (by decide)
  · rintro (rfl | rfl | rfl | rfl | rfl | rfl) <;> exact absurd this (by decide)

theorem colNames_nodup (n : Nat) : (colNames n).Nodup := by
  unfold colNames
  refine List.Nodup.map ?_ List.nodup_range
  intro a b h
  simp only [List.cons.injEq, true_and] at h
  exact str_inj h

theorem mem_colNames {n : Nat} {c : Text} (h : c ∈ colNames n) : ∃ j, c = 'c' :: str j := by
  obtain ⟨j, -, rfl⟩ := List.mem_map.mp h
  exact ⟨j, rfl⟩

theorem itemFile {f : Nat → Nat → Text} {fourth : Text} (h : ∀ j, f 0 j = if j < 4 then head4 ('#' :: fourth) j else 'c' :: str (j - 4))
    (h4 : fourth = "src".toList ∨ fourth = "item".toList) (parse : Text → Val) (name : Text) (base n repeats : Nat) :
    Database.Spec.ItemFile (Database.oneFile (Database.addExt name) (rawOf parse (table f base n repeats))) name (rawOf parse (table f base n repeats)) [] fourth (colNames n) := by
  have hhead := table_head f fourth h base n repeats
  have hc : (rawOf parse (table f base n repeats)).columns = "#file".toList :: "onset".toList :: "offset".toList :: ('#' :: fourth) :: colNames n := by
    unfold rawOf
    rw [List.headD_eq_head?_getD, hhead]
    rfl
  refine ⟨by simp [Database.oneFile], ?_, ⟨by rw [hc]; rfl, by simp, ?_⟩, ?_, ?_⟩
  · rw [hc]
    intro c hcm
    simp only [List.mem_cons] at hcm
    rcases hcm with rfl | rfl | rfl | rfl | hcm
    · decide
    · decide
    · decide
    · rcases h4 with rfl | rfl <;> decide
    · obtain ⟨j, rfl⟩ := mem_colNames hcm
      refine ⟨by simp, ?_⟩
      intro hm
      rcases List.mem_cons.mp hm with hm | hm
      · exact absurd hm (by decide)
      · exact (str_chars hm).1 rfl
  · intro c hcm
    obtain ⟨j, rfl⟩ := mem_colNames hcm
    simp
  · have hn : ∀ t : Text, t.head? ≠ some 'c' → t ∉ colNames n := by
      intro t ht hm
      obtain ⟨j, rfl⟩ := mem_colNames hm
      exact ht rfl
    have := colNames_nodup n
    have k1 := hn ['f', 'i', 'l', 'e'] (by decide)
    have k2 := hn ['o', 'n', 's', 'e', 't'] (by decide)
    have k3 := hn ['o', 'f', 'f', 's', 'e', 't'] (by decide)
    have k4 := hn ['s', 'r', 'c'] (by decide)
    have k5 := hn ['i', 't', 'e', 'm'] (by decide)
    rcases h4 with rfl | rfl
    · simp [List.nodup_cons, this, k1, k2, k3, k4]
    · simp [List.nodup_cons, this, k1, k2, k3, k5]
  · intro c _
    by_cases hb : Database.Spec.base name ++ '.' :: c = Database.addExt name
    · exact Or.inl hb
    · exact Or.inr (by simp [Database.oneFile, hb])

theorem rowsOf (f : Nat → Nat → Text) (parse : Text → Val) (base n repeats : Nat) :
    (rawOf parse (table f base n repeats)).rows.length = base ^ n * (repeats + 1) ∧
    ∀ r ∈ (rawOf parse (table f base n repeats)).rows, r.length = n + 4 ∧ ∀ v ∈ r, v.isSome := by
  unfold rawOf
  simp only [table_tail]
  refine ⟨by simp, ?_⟩
  intro r hr
  rw [List.map_map] at hr
  obtain ⟨i, -, rfl⟩ := List.mem_map.mp hr
  refine ⟨by simp, ?_⟩
  intro v hv
  obtain ⟨c, -, rfl⟩ := List.mem_map.mp hv
  rfl

theorem task_created {f : Nat → Nat → Text} {fourth : Text} (h : ∀ j, f 0 j = if j < 4 then head4 ('#' :: fourth) j else 'c' :: str (j - 4))
    (h4 : fourth = "src".toList ∨ fourth = "item".toList) (parse : Text → Val) (name : Text) (base n repeats : Nat) (hs : (base ^ n * (repeats + 1)) ^ 3 < 2 ^ 64)
    {on : String} {across by_ : List String} (h1 : on.toList ∈ fourth :: colNames n) (h2 : ∀ c ∈ across, c.toList ∈ fourth :: colNames n)
    (h3 : ∀ c ∈ by_, c.toList ∈ fourth :: colNames n) {e : Task.Env} (he : e.Lawful) :
    ∃ T, Database.fromFile e (Database.oneFile (Database.addExt name) (rawOf parse (table f base n repeats))) name on across by_ [] [] = .ok T := by
  obtain ⟨hl, hr⟩ := rowsOf f parse base n repeats
  have hI := itemFile h h4 parse name base n repeats
  rw [Database.C61_file_created_iff he hI ⟨by simp, by simp, by simp, by simp⟩ (by rw [hl]; exact hs)]
  refine ⟨⟨h1, h2, h3, ?_⟩, by simp, ?_⟩
  · intro c hc
    rcases List.mem_cons.mp hc with rfl | hc
    · rcases h4 with rfl | rfl <;> decide
    · obtain ⟨j, rfl⟩ := mem_colNames hc
      simp only [List.mem_cons, not_or]
      exact ⟨⟨by decide, fun hm => (str_chars hm).2.2.1 rfl⟩, ⟨by decide, fun hm => (str_chars hm).2.1 rfl⟩⟩
  · unfold Database.Spec.NoGap Database.Spec.complete
    have hall : (rawOf parse (table f base n repeats)).rows.zipIdx.filter (fun p => (List.range' (3 + ([] : List Text).length)
        ((rawOf parse (table f base n repeats)).columns.length - (3 + ([] : List Text).length))).all (fun i => (Database.fieldAt p.1 i).isSome)) =
        (rawOf parse (table f base n repeats)).rows.zipIdx := by
      rw [List.filter_eq_self]
      intro p hp
      rw [List.all_eq_true]
      intro i hi
      have hp1 : p.1 ∈ (rawOf parse (table f base n repeats)).rows := (List.fst_mem_of_mem_zipIdx hp)
      obtain ⟨g1, g2⟩ := hr p.1 hp1
      have hi' : i < p.1.length := by
        have := Database.hlen hI
        rw [List.mem_range'_1] at hi
        rw [g1]
        simp [colNames] at this hi
        omega
      unfold Database.fieldAt
      rw [List.getElem?_eq_getElem hi']
      exact g2 _ (List.getElem_mem hi')
    rw [hall, List.zipIdx_map_snd]
    simp [List.range_eq_range']

theorem lines_cons_nl (t : Text) (ht : '\n' ∉ t) (s : Text) : Verify.lines (t ++ '\n' :: s) = (t ++ ['\n']) :: Verify.lines s := by
  induction t with
  | nil => simp [Verify.lines]
  | cons c t ih =>
    simp only [List.mem_cons, not_or] at ht
    rw [List.cons_append, Verify.lines, if_neg (Ne.symm ht.1), ih ht.2]
    rfl

theorem lines_render (rows : List (List Text)) (h : ∀ r ∈ rows, '\n' ∉ Database.join r) : Verify.lines (render rows) = rows.map (fun r => Database.join r ++ ['\n']) := by
  unfold render
  induction rows with
  | nil => rfl
  | cons r rows ih =>
    rw [List.map_cons, List.flatten_cons, List.append_assoc, List.singleton_append, lines_cons_nl _ (h r (by simp)), ih (fun r hr => h r (by simp [hr]))]

theorem mem_join {c : Char} : ∀ {l : List Text}, c ∈ Database.join l → c = ' ' ∨ ∃ t ∈ l, c ∈ t
  | [], h => by simp [Database.join] at h
  | [x], h => Or.inr ⟨x, by simp, by simpa [Database.join] using h⟩
  | x :: y :: xs, h => by
    rw [Database.join] at h
    · rcases List.mem_append.mp h with h | h
      · exact Or.inr ⟨x, by simp, h⟩
      · rcases List.mem_cons.mp h with h | h
        · exact Or.inl h
        · rcases mem_join h with h | ⟨t, ht, hc⟩
          · exact Or.inl h
          · exact Or.inr ⟨t, by simp only [List.mem_cons] at ht ⊢; tauto, hc⟩
    · simp

theorem made_join : ∀ {l : List Text}, l ≠ [] → (∀ t ∈ l, Verify.Spec.Word t) → Verify.Spec.Made (Database.join l ++ ['\n']) l
  | [], h, _ => absurd rfl h
  | [x], _, hw => by
    have := Verify.Spec.Made.one (a := []) (b := ['\n']) (by intro c hc; simp at hc) (hw x (by simp)) (by
      intro c hc; rw [List.mem_singleton.mp hc]; unfold Verify.Spec.Space; decide)
    simpa [Database.join] using this
  | x :: y :: xs, _, hw => by
    have ih := made_join (l := y :: xs) (by simp) (fun t ht => hw t (by simp only [List.mem_cons] at ht ⊢; tauto))
    have := Verify.Spec.Made.cons (a := []) (b := [' ']) (by intro c hc; simp at hc) (hw x (by simp)) (by
      intro c hc; rw [List.mem_singleton.mp hc]; unfold Verify.Spec.Space; decide) (by simp) ih (by simp)
    rw [Database.join]
    · simpa using this
    · simp

theorem word_head {c : Char} (hc : ¬ Verify.Spec.Space c) (n : Nat) : Verify.Spec.Word (c :: str n) :=
  ⟨by simp, by
    intro d hd
    rcases List.mem_cons.mp hd with rfl | hd
    · exact hc
    · exact (str_chars hd).2.2.2.2⟩

theorem no_nl {t : Text} (h : Verify.Spec.Word t) : '\n' ∉ t := fun hm => h.2 _ hm (Or.inr (Or.inr (Or.inl rfl)))

theorem check_ok {f : Nat → Nat → Text} {fourth : Text} (h : ∀ j, f 0 j = if j < 4 then head4 ('#' :: fourth) j else 'c' :: str (j - 4))
    (h4 : fourth = "src".toList ∨ fourth = "item".toList) (h0 : ∀ i, f (i + 1) 0 = 's' :: str i) (hw : ∀ i j, Verify.Spec.Word (f (i + 1) j)) (base n repeats : Nat) :
    Verify.check (render (table f base n repeats)) (some (featNames base n repeats)) = .ok () := by
  have hhead := table_head f fourth h base n repeats
  have hcons : table f base n repeats = ("#file".toList :: "onset".toList :: "offset".toList :: ('#' :: fourth) :: colNames n) :: (table f base n repeats).tail := by
    cases ht : table f base n repeats with
    | nil => rw [ht] at hhead; simp at hhead
    | cons r rs => rw [ht] at hhead; simp only [List.head?_cons, Option.some.injEq] at hhead; rw [hhead]; rfl
  have hwh : ∀ t ∈ ("#file".toList :: "onset".toList :: "offset".toList :: ('#' :: fourth) :: colNames n), Verify.Spec.Word t := by
    intro t ht
    simp only [List.mem_cons] at ht
    rcases ht with rfl | rfl | rfl | rfl | ht
    · unfold Verify.Spec.Word Verify.Spec.Space; decide
    · unfold Verify.Spec.Word Verify.Spec.Space; decide
    · unfold Verify.Spec.Word Verify.Spec.Space; decide
    · rcases h4 with rfl | rfl <;> (unfold Verify.Spec.Word Verify.Spec.Space; decide)
    · obtain ⟨j, rfl⟩ := mem_colNames ht
      exact word_head (by unfold Verify.Spec.Space; decide) j
  have hrow : ∀ r ∈ (table f base n repeats).tail, ∃ i < base ^ n * (repeats + 1), r = (List.range (n + 4)).map (f (i + 1)) := by
    rw [table_tail]
    intro r hr
    obtain ⟨i, hi, rfl⟩ := List.mem_map.mp hr
    exact ⟨i, by simpa using hi, rfl⟩
  have hnl : ∀ r ∈ table f base n repeats, '\n' ∉ Database.join r := by
    intro r hr hm
    rcases mem_join hm with hc | ⟨t, ht, hc⟩
    · exact absurd hc (by decide)
    · rw [hcons] at hr
      rcases List.mem_cons.mp hr with rfl | hr
      · exact no_nl (hwh t ht) hc
      · obtain ⟨i, -, rfl⟩ := hrow r hr
        obtain ⟨j, -, rfl⟩ := List.mem_map.mp ht
        exact no_nl (hw i j) hc
  rw [Verify.C59_accepts, lines_render _ hnl, hcons, List.map_cons]
  refine ⟨_, _, _, rfl, rfl, ⟨fourth, colNames n, made_join (by simp) hwh⟩, ?_⟩
  intro l hl
  obtain ⟨r, hr, rfl⟩ := List.mem_map.mp hl
  obtain ⟨i, hi, rfl⟩ := hrow r hr
  refine ⟨'s' :: str i, List.mem_map.mpr ⟨i, by simpa using hi, rfl⟩, ?_, Or.inr ?_⟩
  · intro hm
    rcases List.mem_cons.mp hm with hm | hm
    · exact absurd hm (by decide)
    · exact (str_chars hm).1 rfl
  · rw [show n + 4 = (n + 3) + 1 from rfl, List.range_succ_eq_map, List.map_cons, h0]
    rw [show n + 3 = (n + 2) + 1 from rfl, List.range_succ_eq_map, List.map_cons, List.map_cons, Database.join]
    · rw [List.append_assoc, List.cons_append]
      exact ⟨_, rfl⟩
    · simp

end ABX.Items
