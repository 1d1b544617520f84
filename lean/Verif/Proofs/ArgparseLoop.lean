import Verif.Proofs.Argparse
import Mathlib.Data.List.Induction
/-!
Lemmas about the loop of the parsing of command lines.
-/
namespace ABX.Argparse
open Database (Text)
open Spec

/-! ### what the arguments are -/

theorem classify_value {P : Parser} {v : Text} (hv : Value v) (rest : List Text) : classify P (v :: rest) = (classify P rest).map (Item.arg v :: ·) := by
  have h1 : v ≠ "--".toList := by rintro rfl; exact hv rfl
  have h2 : parseOptional P v = .ok none := by
    cases v with
    | nil => rfl
    | cons c t =>
      unfold parseOptional
      dsimp only
      rw [if_pos (by simpa [Value] using hv)]
  rw [classify, if_neg h1, h2]
  dsimp only
  cases classify P rest <;> rfl

theorem classify_values {P : Parser} : ∀ (vs : List Text), (∀ v ∈ vs, Value v) → ∀ rest : List Text, classify P (vs ++ rest) = (classify P rest).map (vs.map Item.arg ++ ·)
  | [], _, rest => by
    rw [List.nil_append]
    cases classify P rest <;> rfl
  | v :: vs, h, rest => by
    rw [List.cons_append, classify_value (h v (by simp)), classify_values vs (fun w hw => h w (List.mem_cons_of_mem _ hw)) rest]
    cases classify P rest <;> rfl

theorem classify_option {P : Parser} {s : Text} {t : Tok} (h1 : s ≠ "--".toList) (h2 : parseOptional P s = .ok (some t)) (rest : List Text) :
    classify P (s :: rest) = (classify P rest).map (Item.option t s :: ·) := by
  rw [classify, if_neg h1, h2]
  dsimp only
  cases classify P rest <;> rfl

/-- the arguments of an option with its values -/
def Block (g : Group) (items : List Item) : Prop :=
  ∃ t text as, items = .option t text :: as.map Item.arg ∧ t.action = some g.opt ∧ ((t.explicit = none ∧ as = g.args) ∨ (as = [] ∧ ∃ v, t.explicit = some v ∧ g.args = [v]))

def Blocks : List Group → List Item → Prop
  | [], items => items = []
  | g :: gs, items => ∃ a b, items = a ++ b ∧ Block g a ∧ Blocks gs b

theorem form_block {P : Parser} (hP : Sane P) {g : Group} {l : List Text} (h : Form P g l) : ∃ a, Block g a ∧ ∀ rest, classify P (l ++ rest) = (classify P rest).map (a ++ ·) := by
  cases h with
  | @apart s h hv =>
    obtain ⟨h1, full, h2⟩ := parse_name hP h
    refine ⟨_, ⟨⟨some g.opt, full, false, none⟩, s, g.args, rfl, rfl, Or.inl ⟨rfl, rfl⟩⟩, fun rest => ?_⟩
    rw [List.cons_append, classify_option h1 h2, classify_values _ hv]
    cases classify P rest <;> rfl
  | @joined s v h hv =>
    obtain ⟨h1, full, h2⟩ := parse_joined hP (v := v) h
    refine ⟨_, ⟨⟨some g.opt, full, true, some v⟩, s ++ '=' :: v, [], rfl, rfl, Or.inr ⟨rfl, v, rfl, hv⟩⟩, fun rest => ?_⟩
    exact classify_option h1 h2 rest
  | @glued c v h hs hv h0 h1 =>
    obtain ⟨h1, h2⟩ := parse_glued hP h hs h0 h1
    refine ⟨_, ⟨⟨some g.opt, ['-', c], false, some v⟩, ['-', c] ++ v, [], rfl, rfl, Or.inr ⟨rfl, v, rfl, hv⟩⟩, fun rest => ?_⟩
    exact classify_option h1 h2 rest

theorem written_blocks {P : Parser} (hP : Sane P) {gs : List Group} {l : List Text} (h : Written P gs l) : ∃ bs, Blocks gs bs ∧ ∀ rest, classify P (l ++ rest) = (classify P rest).map (bs ++ ·) := by
  induction h with
  | nil => exact ⟨[], rfl, fun rest => by rw [List.nil_append]; cases classify P rest <;> rfl⟩
  | cons h hs ih =>
    obtain ⟨a, ha, h1⟩ := form_block hP h
    obtain ⟨b, hb, h2⟩ := ih
    refine ⟨a ++ b, ⟨a, b, rfl, ha, hb⟩, fun rest => ?_⟩
    rw [List.append_assoc, h1, h2]
    cases classify P rest with
    | error _ => rfl
    | ok items => exact congrArg Except.ok (List.append_assoc _ _ _).symm

theorem blocks_length : ∀ {gs : List Group} {bs : List Item}, Blocks gs bs → gs.length ≤ bs.length
  | [], _, _ => Nat.zero_le _
  | _ :: _, _, ⟨a, b, rfl, ⟨t, x, as, ha, _⟩, hb⟩ => by
    have := blocks_length hb
    rw [ha, List.length_append, List.length_cons, List.length_cons]
    omega

/-! ### the options are taken -/

/-- the state after some options -/
def after (gs : List Group) (s : State) : State :=
  { s with values := gs.reverse.map (fun g => (g.opt.dest, g.args)) ++ s.values, seenOpt := gs.reverse.map (·.opt) ++ s.seenOpt }

theorem takeOpt_fits {isInt : Text → Bool} {g : Group} (h : Fits isInt g) (s : State) : takeOpt isInt g.opt g.args s = .ok (after [g] s) := by
  unfold takeOpt
  rw [if_neg (by intro e; have := h.1; rw [e] at this; exact this), if_neg]
  · rfl
  · intro e
    rw [Bool.and_eq_true] at e
    have := List.all_eq_true.mpr (h.2 e.1)
    rw [this] at e
    simp at e

theorem takeWhile_args (vs : List Text) {R : List Item} (hR : ∀ v R', R ≠ .arg v :: R') : (vs.map Item.arg ++ R).takeWhile Item.isArg = vs.map Item.arg := by
  induction vs with
  | nil =>
    rw [List.map_nil, List.nil_append]
    match R, hR with
    | [], _ => rfl
    | .arg v :: R', h => exact absurd rfl (h v R')
    | .dash :: _, _ => rfl
    | .option _ _ :: _, _ => rfl
  | cons v vs ih =>
    rw [List.map_cons, List.cons_append, List.takeWhile_cons, if_pos (by rfl), ih]

theorem texts_args (vs : List Text) : (vs.map Item.arg).map Item.text = vs := by
  rw [List.map_map]
  exact List.map_id' _

theorem consume_block {P : Parser} {isInt : Text → Bool} {g : Group} {t : Tok} {text : Text} {as : List Text} {R : List Item} {s : State} (hf : Fits isInt g) (ht : t.action = some g.opt)
    (he : (t.explicit = none ∧ as = g.args) ∨ (as = [] ∧ ∃ v, t.explicit = some v ∧ g.args = [v])) (hR : g.opt.nargs = .plus → ∀ v R', R ≠ .arg v :: R') :
    consumeOptional P isInt t text (as.map Item.arg ++ R) s = .ok (R, after [g] s) := by
  unfold consumeOptional
  rw [ht]
  dsimp only
  rcases he with ⟨he, rfl⟩ | ⟨rfl, v, he, hv⟩
  · rw [he]
    dsimp only
    have hm : matchArgument g.opt (g.args.map Item.arg ++ R) = .ok g.args.length := by
      have h1 := hf.1
      unfold matchArgument
      cases hn : g.opt.nargs with
      | flag => rw [hn] at h1; dsimp only at h1 ⊢; rw [h1]; rfl
      | help => rw [hn] at h1; exact h1.elim
      | one =>
        rw [hn] at h1
        dsimp only at h1 ⊢
        obtain ⟨v, hv⟩ := List.length_eq_one_iff.mp h1
        rw [hv]
        rfl
      | opt => rw [hn] at h1; exact h1.elim
      | plus =>
        rw [hn] at h1
        dsimp only at h1 ⊢
        rw [takeWhile_args _ (hR hn), List.length_map, if_neg (by simpa using h1)]
    unfold takeFollowing
    rw [hm]
    dsimp only
    rw [List.take_left' (by rw [List.length_map]), List.drop_left' (by rw [List.length_map]), texts_args, List.nil_append, takeOpts, takeOpt_fits hf]
    rfl
  · rw [he]
    dsimp only
    have hc : chain P g.opt t.string t.sep [] v = .ok ([(g.opt, [v])], none, none) := by
      have hn : ¬ (g.opt.nargs = .flag ∨ g.opt.nargs = .help) := by
        have h1 := hf.1
        rintro (hn | hn)
        · rw [hn] at h1; dsimp only at h1; rw [hv] at h1; cases h1
        · rw [hn] at h1; exact h1
      cases v with
      | nil => rw [chain, if_neg hn]; rfl
      | cons c e => rw [chain, if_neg hn]; rfl
    rw [hc]
    dsimp only
    rw [takeOpts, ← hv]
    have := takeOpt_fits hf s
    have hs : ({ s with extras := s.extras ++ (none : Option Text).toList } : State) = s := by simp
    rw [hs, this]
    rfl

theorem after_append (a b : List Group) (s : State) : after (a ++ b) s = after b (after a s) := by
  unfold after
  simp

theorem blocks_no_arg {gs : List Group} {bs T : List Item} (h : Blocks gs bs) (hg : gs ≠ []) : ∀ v R', bs ++ T ≠ .arg v :: R' := by
  cases gs with
  | nil => exact absurd rfl hg
  | cons g gs =>
    obtain ⟨a, b, rfl, ⟨t, x, as, rfl, -⟩, -⟩ := h
    intro v R' e
    simp at e

theorem loop_groups {P : Parser} {isInt : Text → Bool} {T : List Item} (hT : T.any Item.isOption = false) : ∀ (gs : List Group) (bs : List Item) (s : State) (fuel : Nat) (ps : List Pos),
    Blocks gs bs → (∀ g ∈ gs, Fits isInt g) → (∀ v T', T = .arg v :: T' → ∀ g ∈ gs.getLast?, g.opt.nargs ≠ .plus) → gs.length < fuel →
    loop P isInt fuel ps (bs ++ T) s = .ok (ps, T, after gs s)
  | [], bs, s, fuel + 1, ps, hb, _, _, _ => by
    obtain rfl : bs = [] := hb
    rw [List.nil_append]
    unfold loop
    rw [if_neg (by rw [hT]; simp)]
    rfl
  | g :: gs, bs, s, fuel + 1, ps, hb, hf, hl, hfu => by
    obtain ⟨a, b, rfl, ⟨t, x, as, rfl, h1, h2⟩, hb⟩ := hb
    rw [List.cons_append, List.cons_append, List.append_assoc]
    unfold loop
    rw [if_pos (by rw [List.any_cons]; rfl)]
    dsimp only
    rw [consume_block (hf g (by simp)) h1 h2]
    · dsimp only
      rw [loop_groups hT gs b (after [g] s) fuel ps hb (fun q hq => hf q (List.mem_cons_of_mem _ hq))]
      · rw [← after_append]; rfl
      · intro v T' e q hq
        refine hl v T' e q ?_
        rw [List.getLast?_cons]
        cases hx : gs.getLast? with
        | none => rw [hx] at hq; cases hq
        | some y => rw [hx] at hq; simpa using hq
      · rw [List.length_cons] at hfu; omega
    · intro hp v R' e
      cases gs with
      | nil =>
        obtain rfl : b = [] := hb
        exact hl v R' e g (by simp) hp
      | cons g' gs => exact blocks_no_arg hb (by simp) v R' e

/-! ### the positional arguments are taken -/

/-- no further value follows -/
def Stop (R : List Item) : Prop := (∀ v R', R ≠ .arg v :: R') ∧ ∀ R', R ≠ .dash :: R'

theorem stop_dash {R : List Item} (h : Stop R) : R.takeWhile Item.isDash = [] := by
  match R, h with
  | [], _ => rfl
  | .arg _ :: _, _ => rfl
  | .dash :: R', h => exact absurd rfl (h.2 R')
  | .option _ _ :: _, _ => rfl

theorem args_dash (vs : List Text) {R : List Item} (h : Stop R) : (vs.map Item.arg ++ R).takeWhile Item.isDash = [] := by
  cases vs with
  | nil => exact stop_dash h
  | cons v vs => rfl

theorem lengths_arg (p : Pos) (v : Text) (vs : List Text) {R : List Item} (h : Stop R) : lengths p (((v :: vs).map Item.arg) ++ R) = if p.may then [1, 0] else [1] := by
  unfold lengths
  rw [args_dash _ h, List.length_nil]
  dsimp only
  rw [List.drop_zero, List.map_cons, List.cons_append]
  dsimp only
  rw [args_dash _ h]
  cases p.may <;> rfl

theorem lengths_stop (p : Pos) {R : List Item} (h : Stop R) : lengths p R = if p.may then [0] else [] := by
  unfold lengths
  rw [stop_dash h, List.length_nil]
  dsimp only
  rw [List.drop_zero]
  match R, h with
  | [], _ => cases p.may <;> rfl
  | .arg v :: R', h => exact absurd rfl (h.1 v R')
  | .dash :: R', h => exact absurd rfl (h.2 R')
  | .option _ _ :: _, _ => cases p.may <;> rfl

theorem lengths_dashed (p : Pos) (v : Text) (vs : List Text) : lengths p (.dash :: (v :: vs).map Item.arg) = if p.may then [2, 1, 0] else [2] := by
  unfold lengths
  have : (Item.dash :: (v :: vs).map Item.arg).takeWhile Item.isDash = [.dash] := rfl
  rw [this]
  have e := args_dash vs (R := []) ⟨by simp, by simp⟩
  rw [List.append_nil] at e
  rw [List.map_cons, List.length_singleton]
  dsimp only [List.drop]
  rw [e]
  cases p.may <;> rfl

/-- those that may be missing come last -/
def Sorted (ps : List Pos) : Prop := ps.Pairwise (fun p q => p.may = true → q.may = true)

def mustCount (ps : List Pos) : Nat := (ps.filter (fun p => !p.may)).length

theorem mustCount_cons (p : Pos) (ps : List Pos) : mustCount (p :: ps) = (if p.may then 0 else 1) + mustCount ps := by
  unfold mustCount
  cases h : p.may
  · rw [List.filter_cons_of_pos (by simp [h]), List.length_cons]; simp; omega
  · rw [List.filter_cons_of_neg (by simp [h])]; simp

theorem mustCount_zero {ps : List Pos} (h : ∀ p ∈ ps, p.may = true) : mustCount ps = 0 := by
  unfold mustCount
  rw [List.length_eq_zero_iff, List.filter_eq_nil_iff]
  intro p hp
  simp [h p hp]

theorem matchAll_args : ∀ (ps : List Pos) (vs : List Text) {R : List Item}, Sorted ps → mustCount ps ≤ vs.length → vs.length ≤ ps.length → Stop R →
    matchAll ps (vs.map Item.arg ++ R) = some (List.replicate vs.length 1 ++ List.replicate (ps.length - vs.length) 0)
  | [], [], _, _, _, _, _ => rfl
  | p :: ps, [], R, hs, hm, _, hR => by
    have hp : p.may = true := by
      rw [mustCount_cons] at hm
      cases h : p.may
      · rw [h] at hm; simp at hm
      · rfl
    have ih := matchAll_args ps [] (R := R) (List.Pairwise.of_cons hs) (by rw [mustCount_cons, hp] at hm; simpa using hm) (Nat.zero_le _) hR
    rw [List.map_nil, List.nil_append] at ih ⊢
    rw [matchAll, lengths_stop p hR, if_pos hp, List.findSome?_cons, List.drop_zero, ih]
    rfl
  | p :: ps, v :: vs, R, hs, hm, hl, hR => by
    have hm' : mustCount ps ≤ vs.length := by
      cases h : p.may
      · rw [mustCount_cons, h, List.length_cons] at hm; simp at hm; omega
      · rw [mustCount_zero (fun q hq => List.rel_of_pairwise_cons hs hq h)]; omega
    have ih := matchAll_args ps vs (R := R) (List.Pairwise.of_cons hs) hm' (by simpa using hl) hR
    rw [matchAll, lengths_arg p v vs hR]
    have hd : (((v :: vs).map Item.arg) ++ R).drop 1 = vs.map Item.arg ++ R := rfl
    have : ∀ l : List Nat, (1 :: l).findSome? (fun n => (matchAll ps ((((v :: vs).map Item.arg) ++ R).drop n)).map (n :: ·)) = some (List.replicate (v :: vs).length 1 ++ List.replicate ((p :: ps).length - (v :: vs).length) 0) := by
      intro l
      rw [List.findSome?_cons, hd, ih]
      simp [List.replicate_succ]
    cases p.may
    · exact this []
    · exact this [0]

theorem matchAll_dashed (p : Pos) (ps : List Pos) (v : Text) (vs : List Text) (hs : Sorted (p :: ps)) (hm : mustCount (p :: ps) ≤ (v :: vs).length) (hl : (v :: vs).length ≤ (p :: ps).length) :
    matchAll (p :: ps) (.dash :: (v :: vs).map Item.arg) = some (2 :: (List.replicate vs.length 1 ++ List.replicate (ps.length - vs.length) 0)) := by
  have hm' : mustCount ps ≤ vs.length := by
    cases h : p.may
    · rw [mustCount_cons, h, List.length_cons] at hm; simp at hm; omega
    · rw [mustCount_zero (fun q hq => List.rel_of_pairwise_cons hs hq h)]; omega
  have ih := matchAll_args ps vs (R := []) (List.Pairwise.of_cons hs) hm' (by simpa using hl) ⟨by simp, by simp⟩
  rw [List.append_nil] at ih
  rw [matchAll, lengths_dashed]
  have hd : (Item.dash :: (v :: vs).map Item.arg).drop 2 = vs.map Item.arg := rfl
  have : ∀ l : List Nat, (2 :: l).findSome? (fun n => (matchAll ps ((Item.dash :: (v :: vs).map Item.arg).drop n)).map (n :: ·)) = some (2 :: (List.replicate vs.length 1 ++ List.replicate (ps.length - vs.length) 0)) := by
    intro l
    rw [List.findSome?_cons, hd, ih]
    rfl
  cases p.may
  · exact this []
  · exact this [1, 0]

theorem matchAll_none : ∀ (ps : List Pos) (vs : List Text) {R : List Item}, Sorted ps → vs.length < mustCount ps → Stop R → matchAll ps (vs.map Item.arg ++ R) = none
  | [], vs, _, _, h, _ => by simp [mustCount] at h
  | p :: ps, vs, R, hs, h, hR => by
    have hp : p.may = false := by
      cases hx : p.may
      · rfl
      · rw [mustCount_cons, hx, mustCount_zero (fun q hq => List.rel_of_pairwise_cons hs hq hx)] at h; simp at h
    rw [mustCount_cons, hp] at h
    rw [matchAll]
    cases vs with
    | nil =>
      rw [List.map_nil, List.nil_append, lengths_stop p hR, hp]
      rfl
    | cons v vs =>
      have ih := matchAll_none ps vs (R := R) (List.Pairwise.of_cons hs) (by rw [List.length_cons] at h; simp at h; omega) hR
      have hd : (((v :: vs).map Item.arg) ++ R).drop 1 = vs.map Item.arg ++ R := rfl
      rw [lengths_arg p v vs hR, hp]
      show List.findSome? _ [1] = none
      rw [List.findSome?_cons, hd, ih]
      rfl

theorem matchPartial_all {ps : List Pos} {items : List Item} {c : List Nat} (h0 : ps ≠ []) (h : matchAll ps items = some c) : matchPartial ps items = c := by
  unfold matchPartial
  obtain ⟨n, hn⟩ : ∃ n, ps.length = n + 1 := ⟨ps.length - 1, by have := List.length_pos_of_ne_nil h0; omega⟩
  rw [hn, List.range_succ, List.reverse_append, List.reverse_singleton, List.singleton_append, List.findSome?_cons, ← hn, List.take_length, h]
  rfl

theorem sorted_take {ps : List Pos} (h : Sorted ps) (n : Nat) : Sorted (ps.take n) := List.Pairwise.sublist (List.take_sublist _ _) h

theorem mustCount_take {ps : List Pos} (h : Sorted ps) : ∀ {n : Nat}, n ≤ mustCount ps → mustCount (ps.take n) = n := by
  induction ps with
  | nil => intro n hn; simp [mustCount] at hn ⊢; omega
  | cons p ps ih =>
    intro n hn
    cases n with
    | zero => rfl
    | succ n =>
      cases hx : p.may
      · rw [List.take_succ_cons, mustCount_cons, hx, ih (List.Pairwise.of_cons h)]
        · simp; omega
        · rw [mustCount_cons, hx] at hn; simp at hn; omega
      · rw [mustCount_cons, hx, mustCount_zero (fun q hq => List.rel_of_pairwise_cons h hq hx)] at hn; simp at hn

theorem mustCount_le (ps : List Pos) : mustCount ps ≤ ps.length := List.length_filter_le _ _

theorem mustCount_append (a b : List Pos) : mustCount (a ++ b) = mustCount a + mustCount b := by
  unfold mustCount
  rw [List.filter_append, List.length_append]

/-- too few values: each of them is taken by one positional argument -/
theorem matchPartial_few {ps : List Pos} {vs : List Text} {R : List Item} (hs : Sorted ps) (h : vs.length < mustCount ps) (hR : Stop R) : matchPartial ps (vs.map Item.arg ++ R) = List.replicate vs.length 1 := by
  unfold matchPartial
  have hle := mustCount_le ps
  have hbig : ∀ i, vs.length ≤ i → i < ps.length → matchAll (ps.take (i + 1)) (vs.map Item.arg ++ R) = none := by
    intro i h1 h2
    refine matchAll_none _ vs (sorted_take hs _) ?_ hR
    by_cases h3 : i + 1 ≤ mustCount ps
    · rw [mustCount_take hs h3]; omega
    · have e := mustCount_take hs (n := mustCount ps) (Nat.le_refl _)
      have : ps.take (i + 1) = ps.take (mustCount ps) ++ (ps.take (i + 1)).drop (mustCount ps) := by
        have e3 := List.take_append_drop (mustCount ps) (ps.take (i + 1))
        rw [List.take_take, Nat.min_eq_left (by omega)] at e3
        exact e3.symm
      rw [this, mustCount_append, e]
      omega
  have hgo : ∀ n, n ≤ ps.length → vs.length ≤ n → (List.range n).reverse.findSome? (fun i => matchAll (ps.take (i + 1)) (vs.map Item.arg ++ R)) = if vs.length = 0 then none else some (List.replicate vs.length 1) := by
    intro n
    induction n with
    | zero =>
      intro _ h2
      rw [if_pos (by omega)]
      rfl
    | succ n ih =>
      intro h1 h2
      rw [List.range_succ, List.reverse_append, List.reverse_singleton, List.singleton_append, List.findSome?_cons]
      by_cases h3 : vs.length ≤ n
      · rw [hbig n h3 (by omega)]
        exact ih (by omega) h3
      · have e : n + 1 = vs.length := by omega
        rw [e, matchAll_args _ vs (sorted_take hs _) (by rw [mustCount_take hs (by omega)]) (by rw [List.length_take]; omega) hR, if_neg (by omega), List.length_take]
        dsimp only
        rw [Nat.min_eq_left (by omega), Nat.sub_self]
        simp
  rw [hgo ps.length (Nat.le_refl _) (by omega)]
  split
  · next h0 => rw [h0]; rfl
  · rfl

/-- the state after the values of some positional arguments -/
def afterPos (ps : List Pos) (vs : List Text) (s : State) : State :=
  { s with values := ((ps.zip vs).map (fun q => (q.1.dest, [q.2]))).reverse ++ s.values, seenPos := ps.reverse ++ s.seenPos }

theorem takeAll_args : ∀ (ps : List Pos) (vs : List Text) (R : List Item) (s : State), Sorted ps → mustCount ps ≤ vs.length → vs.length ≤ ps.length → (∀ v ∈ vs, v ≠ "--".toList) →
    takeAll (ps.zip (List.replicate vs.length 1 ++ List.replicate (ps.length - vs.length) 0)) (vs.map Item.arg ++ R) s = (R, afterPos ps vs s)
  | [], [], R, s, _, _, _, _ => rfl
  | p :: ps, [], R, s, hs, hm, _, _ => by
    have hp : p.may = true := by
      rw [mustCount_cons] at hm
      cases h : p.may
      · rw [h] at hm; simp at hm
      · rfl
    have ih := takeAll_args ps [] R { s with seenPos := p :: s.seenPos } (List.Pairwise.of_cons hs) (by rw [mustCount_cons, hp] at hm; simpa using hm) (Nat.zero_le _) (by simp)
    have e : (p :: ps).zip (List.replicate ([] : List Text).length 1 ++ List.replicate ((p :: ps).length - ([] : List Text).length) 0) = (p, 0) :: ps.zip (List.replicate ([] : List Text).length 1 ++ List.replicate (ps.length - ([] : List Text).length) 0) := by
      simp [List.replicate_succ]
    rw [e, takeAll, List.take_zero, List.drop_zero]
    have e2 : takePos p (List.map Item.text []) s = { s with seenPos := p :: s.seenPos } := by
      unfold takePos
      rw [if_pos ⟨rfl, hp⟩]
    rw [e2, ih]
    unfold afterPos
    simp
  | p :: ps, v :: vs, R, s, hs, hm, hl, hv => by
    have hm' : mustCount ps ≤ vs.length := by
      cases h : p.may
      · rw [mustCount_cons, h, List.length_cons] at hm; simp at hm; omega
      · rw [mustCount_zero (fun q hq => List.rel_of_pairwise_cons hs hq h)]; omega
    have ih := takeAll_args ps vs R { s with values := (p.dest, [v]) :: s.values, seenPos := p :: s.seenPos } (List.Pairwise.of_cons hs) hm' (by simpa using hl) (fun w hw => hv w (List.mem_cons_of_mem _ hw))
    have e : (p :: ps).zip (List.replicate (v :: vs).length 1 ++ List.replicate ((p :: ps).length - (v :: vs).length) 0) = (p, 1) :: ps.zip (List.replicate vs.length 1 ++ List.replicate (ps.length - vs.length) 0) := by
      simp [List.replicate_succ]
    rw [e, takeAll]
    have e1 : ((v :: vs).map Item.arg ++ R).take 1 = [.arg v] := rfl
    have e2 : ((v :: vs).map Item.arg ++ R).drop 1 = vs.map Item.arg ++ R := rfl
    have e3 : takePos p (List.map Item.text [.arg v]) s = { s with values := (p.dest, [v]) :: s.values, seenPos := p :: s.seenPos } := by
      unfold takePos
      have : (List.map Item.text [.arg v]).erase "--".toList = [v] := by
        show [v].erase _ = _
        rw [List.erase_of_not_mem]
        simpa using fun e => hv v (by simp) e.symm
      rw [this, if_neg (by simp)]
    rw [e1, e2, e3, ih]
    unfold afterPos
    simp

theorem consume_args {ps : List Pos} {vs : List Text} {R : List Item} {s : State} (hs : Sorted ps) (hm : mustCount ps ≤ vs.length) (hl : vs.length ≤ ps.length) (hR : Stop R) (hv : ∀ v ∈ vs, v ≠ "--".toList) :
    consumePositionals ps (vs.map Item.arg ++ R) s = ([], R, afterPos ps vs s) := by
  cases ps with
  | nil =>
    obtain rfl : vs = [] := List.length_eq_zero_iff.mp (by simpa using hl)
    rfl
  | cons p ps =>
    unfold consumePositionals
    rw [matchPartial_all (by simp) (matchAll_args _ vs hs hm hl hR)]
    dsimp only
    rw [takeAll_args _ vs R s hs hm hl hv]
    have : (List.replicate vs.length 1 ++ List.replicate ((p :: ps).length - vs.length) 0).length = (p :: ps).length := by
      rw [List.length_append, List.length_replicate, List.length_replicate]; omega
    rw [this, List.drop_length]

theorem consume_dashed {ps : List Pos} {vs : List Text} {s : State} (hs : Sorted ps) (h1 : 0 < mustCount ps) (hm : mustCount ps ≤ vs.length) (hl : vs.length ≤ ps.length) (hv : ∀ v ∈ vs, v ≠ "--".toList) :
    consumePositionals ps (.dash :: vs.map Item.arg) s = ([], [], afterPos ps vs s) := by
  match ps, vs with
  | [], _ => simp [mustCount] at h1
  | _ :: _, [] => simp at hm; omega
  | p :: ps, v :: vs =>
    have hm' : mustCount ps ≤ vs.length := by
      cases h : p.may
      · rw [mustCount_cons, h, List.length_cons] at hm; simp at hm; omega
      · rw [mustCount_zero (fun q hq => List.rel_of_pairwise_cons hs hq h)]; omega
    unfold consumePositionals
    rw [matchPartial_all (by simp) (matchAll_dashed p ps v vs hs hm hl)]
    dsimp only
    have : (2 :: (List.replicate vs.length 1 ++ List.replicate (ps.length - vs.length) 0)).length = (p :: ps).length := by
      rw [List.length_cons, List.length_append, List.length_replicate, List.length_replicate]
      simp at hl
      simp
      omega
    rw [this, List.drop_length, List.zip_cons_cons, takeAll]
    have e1 : (Item.dash :: (v :: vs).map Item.arg).take 2 = [.dash, .arg v] := rfl
    have e2 : (Item.dash :: (v :: vs).map Item.arg).drop 2 = vs.map Item.arg ++ [] := by rw [List.append_nil]; rfl
    have e3 : takePos p (List.map Item.text [.dash, .arg v]) s = { s with values := (p.dest, [v]) :: s.values, seenPos := p :: s.seenPos } := by
      unfold takePos
      have : (List.map Item.text [.dash, .arg v]).erase "--".toList = [v] := by
        show ["--".toList, v].erase _ = _
        rw [List.erase_cons_head]
      rw [this, if_neg (by simp)]
    rw [e1, e2, e3, takeAll_args ps vs [] _ (List.Pairwise.of_cons hs) hm' (by simpa using hl) (fun w hw => hv w (List.mem_cons_of_mem _ hw))]
    unfold afterPos
    simp

theorem consume_few {ps : List Pos} {vs : List Text} {R : List Item} {s : State} (hs : Sorted ps) (h : vs.length < mustCount ps) (hR : Stop R) (hv : ∀ v ∈ vs, v ≠ "--".toList) :
    consumePositionals ps (vs.map Item.arg ++ R) s = (ps.drop vs.length, R, afterPos (ps.take vs.length) vs s) := by
  have hle := mustCount_le ps
  unfold consumePositionals
  rw [matchPartial_few hs h hR]
  dsimp only
  rw [List.length_replicate]
  have e : ps.zip (List.replicate vs.length 1) = (ps.take vs.length).zip (List.replicate vs.length 1 ++ List.replicate ((ps.take vs.length).length - vs.length) 0) := by
    have h0 : (ps.take vs.length).length - vs.length = 0 := by rw [List.length_take]; omega
    rw [h0, List.replicate_zero, List.append_nil]
    rw [List.zip_eq_zip_take_min, List.length_replicate, Nat.min_eq_right (by omega), List.take_replicate, Nat.min_self]
  rw [e, takeAll_args _ vs R s (sorted_take hs _) (by rw [mustCount_take hs (by omega)]) (by rw [List.length_take]; omega) hv]

/-! ### the whole -/

theorem sane_sorted {P : Parser} (hP : Sane P) : Sorted P.pos := by
  obtain ⟨a, b, e, -, ha, hb⟩ := hP.order
  rw [e]
  refine List.pairwise_append.mpr ⟨?_, ?_, fun p _ q hq _ => hb q hq⟩
  · exact List.pairwise_of_forall_mem_list fun p hp q _ h => by rw [ha p hp] at h; cases h
  · exact List.pairwise_of_forall_mem_list fun p _ q hq _ => hb q hq

theorem sane_must {P : Parser} (hP : Sane P) : 0 < mustCount P.pos := by
  obtain ⟨a, b, e, h0, ha, -⟩ := hP.order
  obtain ⟨p, hp⟩ := List.exists_mem_of_ne_nil a h0
  exact List.length_pos_of_mem (List.mem_filter.mpr ⟨by rw [e]; exact List.mem_append_left _ hp, by rw [ha p hp]; rfl⟩)

theorem form_opt {P : Parser} {g : Group} {l : List Text} (h : Form P g l) : g.opt ∈ P.opts := by
  cases h with
  | apart h _ => exact h.1
  | joined h _ => exact h.1
  | glued h _ _ _ _ => exact h

theorem written_opt {P : Parser} {gs : List Group} {l : List Text} (h : Written P gs l) : ∀ g ∈ gs, g.opt ∈ P.opts := by
  induction h with
  | nil => intro g hg; cases hg
  | cons h _ ih =>
    intro g hg
    rcases List.mem_cons.mp hg with rfl | hg
    · exact form_opt h
    · exact ih g hg

theorem written_append {P : Parser} {gs gs' : List Group} {l l' : List Text} (h : Written P gs l) (h' : Written P gs' l') : Written P (gs ++ gs') (l ++ l') := by
  induction h with
  | nil => exact h'
  | cons h _ ih => rw [List.cons_append, List.append_assoc]; exact .cons h ih

theorem lookup_groups (d : Text) (gs : List Group) : (gs.reverse.map (fun g => (g.opt.dest, g.args))).lookup d = ((gs.filter (fun g => g.opt.dest = d)).getLast?).map (·.args) := by
  induction gs using List.reverseRecOn with
  | nil => rfl
  | append_singleton gs g ih =>
    rw [List.reverse_append, List.reverse_singleton, List.singleton_append, List.map_cons, List.lookup_cons, List.filter_append]
    by_cases h : g.opt.dest = d
    · rw [h, beq_self_eq_true, List.filter_cons_of_pos (by simpa using h), List.filter_nil, List.getLast?_append]
      rfl
    · have : (d == g.opt.dest) = false := by simpa using fun e => h e.symm
      rw [this, List.filter_cons_of_neg (by simpa using h), List.filter_nil, List.append_nil]
      exact ih

theorem map_nodup_inj {α β : Type} {f : α → β} {l : List α} (h : (l.map f).Nodup) {a b : α} (ha : a ∈ l) (hb : b ∈ l) (e : f a = f b) : a = b :=
  List.inj_on_of_nodup_map h ha hb e

theorem fst_zip_sublist {α β : Type} : ∀ (l : List α) (l' : List β), ((l.zip l').map Prod.fst).Sublist l
  | [], _ => by simp
  | a :: l, [] => by simp
  | a :: l, b :: l' => by rw [List.zip_cons_cons, List.map_cons]; exact (fst_zip_sublist l l').cons_cons a

theorem lookup_zip {ps : List Pos} {vs : List Text} (hn : (ps.map (·.dest)).Nodup) {i : Nat} {p : Pos} (hp : ps[i]? = some p) :
    (((ps.zip vs).map (fun q => (q.1.dest, [q.2]))).reverse).lookup p.dest = (vs[i]?).map (fun v => [v]) := by
  cases hv : vs[i]? with
  | some v =>
    refine lookup_of_mem ?_ ?_
    · rw [List.map_reverse, List.nodup_reverse, List.map_map]
      have e : (ps.zip vs).map ((fun x => x.1) ∘ fun q => (q.1.dest, [q.2])) = ((ps.zip vs).map Prod.fst).map (·.dest) := by
        rw [List.map_map]; rfl
      rw [e]
      refine List.Nodup.sublist (List.Sublist.map _ ?_) hn
      exact fst_zip_sublist ps vs
    · rw [List.mem_reverse, List.mem_map]
      refine ⟨(p, v), List.mem_of_getElem? (i := i) ?_, rfl⟩
      rw [List.getElem?_zip_eq_some]
      exact ⟨hp, hv⟩
  | none =>
    refine lookup_none fun q hq e => ?_
    rw [List.mem_reverse, List.mem_map] at hq
    obtain ⟨⟨p', v⟩, hq, rfl⟩ := hq
    obtain ⟨j, hj⟩ := List.mem_iff_getElem?.mp hq
    rw [List.getElem?_zip_eq_some] at hj
    obtain ⟨h1, h2⟩ := hj
    have hj : j < vs.length := (List.getElem?_eq_some_iff.mp h2).1
    have hi : vs.length ≤ i := List.getElem?_eq_none_iff.mp hv
    obtain ⟨g1, g2⟩ := List.getElem?_eq_some_iff.mp h1
    obtain ⟨k1, k2⟩ := List.getElem?_eq_some_iff.mp hp
    have := (List.Nodup.getElem_inj_iff hn (i := j) (j := i) (hi := by rwa [List.length_map]) (hj := by rwa [List.length_map])).mp (by rw [List.getElem_map, List.getElem_map, g2, k2]; exact e)
    omega

/-- the values that are stored are as they should be -/
theorem means_of {P : Parser} (hP : Sane P) {vs : List Text} {gs : List Group} (hg : ∀ g ∈ gs, g.opt ∈ P.opts) {A B : List (Text × List Text)} (h : A ++ B = ((P.pos.zip vs).map (fun q => (q.1.dest, [q.2]))).reverse) :
    Means P vs gs (A ++ gs.reverse.map (fun g => (g.opt.dest, g.args)) ++ B) := by
  obtain ⟨hn1, hn2, hd⟩ := List.nodup_append.mp hP.dests
  constructor
  · intro i p hp
    have hG : (gs.reverse.map (fun g => (g.opt.dest, g.args))).lookup p.dest = none := by
      refine lookup_none fun q hq e => ?_
      rw [List.mem_map] at hq
      obtain ⟨g, hg', rfl⟩ := hq
      exact hd p.dest (List.mem_map.mpr ⟨p, List.mem_of_getElem? hp, rfl⟩) g.opt.dest (List.mem_map.mpr ⟨_, hg g (List.mem_reverse.mp hg'), rfl⟩) e.symm
    rw [List.lookup_append, List.lookup_append, hG, Option.or_none, ← List.lookup_append, h, lookup_zip hn1 hp]
  · intro o ho
    have hZ : ∀ q ∈ A ++ B, q.1 ≠ o.dest := by
      intro q hq e
      rw [h, List.mem_reverse, List.mem_map] at hq
      obtain ⟨⟨p, v⟩, hq, rfl⟩ := hq
      exact hd p.dest (List.mem_map.mpr ⟨p, (List.of_mem_zip hq).1, rfl⟩) o.dest (List.mem_map.mpr ⟨_, ho, rfl⟩) e
    rw [List.lookup_append, List.lookup_append, lookup_none (fun q hq => hZ q (List.mem_append_left _ hq)), lookup_none (fun q hq => hZ q (List.mem_append_right _ hq)), Option.or_none, Option.none_or, lookup_groups]
    congr 2
    refine List.filter_congr fun g hg' => ?_
    rw [decide_eq_decide]
    exact ⟨fun e => map_nodup_inj hn2 (hg g hg') ho e, fun e => by rw [e]⟩

theorem parse_of {P : Parser} {isInt : Text → Bool} {argv : List Text} {items T T' : List Item} {ps ps' : List Pos} {s s' : State} (h1 : classify P argv = .ok items) (h2 : loop P isInt (items.length + 1) P.pos items {} = .ok (ps, T, s))
    (h3 : consumePositionals ps T s = (ps', T', s')) : parse P isInt argv =
    if (P.pos.any (fun q => !q.may && !s'.seenPos.contains q) || P.opts.any (fun o => o.required && !s'.seenOpt.contains o)) = true then .error .usage else if s'.extras ++ T'.map Item.text ≠ [] then .error .usage else .ok s'.values := by
  unfold parse
  rw [h1]
  dsimp only
  rw [h2]
  dsimp only
  rw [h3]

theorem parse_ok {P : Parser} {isInt : Text → Bool} {argv : List Text} {items T : List Item} {ps ps' : List Pos} {s s' : State} (h1 : classify P argv = .ok items) (h2 : loop P isInt (items.length + 1) P.pos items {} = .ok (ps, T, s))
    (h3 : consumePositionals ps T s = (ps', [], s')) (hp : ∀ q ∈ P.pos, q ∈ s'.seenPos) (ho : ∀ o ∈ P.opts, o.required = true → o ∈ s'.seenOpt) (he : s'.extras = []) : parse P isInt argv = .ok s'.values := by
  rw [parse_of h1 h2 h3, if_neg, if_neg]
  · rw [he]; simp
  · rw [Bool.or_eq_true, List.any_eq_true, List.any_eq_true]
    rintro (⟨q, h, h'⟩ | ⟨o, h, h'⟩)
    · have := List.contains_iff_mem.mpr (hp q h)
      rw [this] at h'
      simp at h'
    · rw [Bool.and_eq_true] at h'
      have := List.contains_iff_mem.mpr (ho o h h'.1)
      rw [this] at h'
      simp at h'

theorem parse_missing {P : Parser} {isInt : Text → Bool} {argv : List Text} {items T T' : List Item} {ps ps' : List Pos} {s s' : State} (h1 : classify P argv = .ok items) (h2 : loop P isInt (items.length + 1) P.pos items {} = .ok (ps, T, s))
    (h3 : consumePositionals ps T s = (ps', T', s')) (h : (∃ q ∈ P.pos, q.may = false ∧ q ∉ s'.seenPos) ∨ s'.extras ≠ [] ∨ T' ≠ []) : parse P isInt argv = .error .usage := by
  rw [parse_of h1 h2 h3]
  split
  · rfl
  · next hno =>
    rcases h with ⟨q, hq, hm, hs⟩ | h
    · refine absurd ?_ hno
      rw [Bool.or_eq_true, List.any_eq_true]
      refine Or.inl ⟨q, hq, ?_⟩
      rw [hm]
      simpa using hs
    · rw [if_pos]
      rcases h with h | h
      · simp [h]
      · simp [h]

theorem blocks_stop {gs : List Group} {bs : List Item} (h : Blocks gs bs) : Stop bs := by
  cases gs with
  | nil => obtain rfl : bs = [] := h; exact ⟨by simp, by simp⟩
  | cons g gs =>
    obtain ⟨a, b, rfl, ⟨t, x, as, rfl, -⟩, -⟩ := h
    exact ⟨by simp, by simp⟩

theorem blocks_any {gs : List Group} {bs : List Item} (h : Blocks gs bs) (hg : gs ≠ []) (T T' : List Item) : (T ++ (bs ++ T')).any Item.isOption = true := by
  cases gs with
  | nil => exact absurd rfl hg
  | cons g gs =>
    obtain ⟨a, b, rfl, ⟨t, x, as, rfl, -⟩, -⟩ := h
    rw [List.any_eq_true]
    exact ⟨.option t x, by simp, rfl⟩

theorem args_any (vs : List Text) : (vs.map Item.arg).any Item.isOption = false := by
  induction vs with
  | nil => rfl
  | cons v vs ih => rw [List.map_cons, List.any_cons, ih]; rfl

/-- positional arguments at the beginning of the line are taken, if there are options after them -/
theorem loop_first {P : Parser} {isInt : Text → Bool} {fuel : Nat} {ps ps' : List Pos} {v : Text} {vs : List Text} {R : List Item} {s s' : State} (ha : R.any Item.isOption = true)
    (h : consumePositionals ps ((v :: vs).map Item.arg ++ R) s = (ps', R, s')) : loop P isInt (fuel + 1) ps ((v :: vs).map Item.arg ++ R) s = loop P isInt fuel ps' R s' := by
  conv => lhs; unfold loop
  rw [if_pos (by rw [List.any_append, ha, Bool.or_true])]
  rw [List.map_cons, List.cons_append] at h ⊢
  dsimp only
  rw [h]
  dsimp only
  rw [if_pos (by rw [List.length_cons, List.length_append]; omega)]

end ABX.Argparse
