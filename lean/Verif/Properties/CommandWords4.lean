import Verif.Properties.CommandWords
/-!
C99, the number of the positional arguments: with more positional arguments than the program has, before the options or after '--', and with fewer than it must have after '--', the call is refused.
-/
namespace ABX.Argparse
open Database (Text)
open Spec

/-! ### too many -/

theorem lengths_more (p : Pos) (v : Text) {X : List Item} (h : X.takeWhile Item.isDash = []) : lengths p (.arg v :: X) = if p.may then [1, 0] else [1] := by
  unfold lengths
  have : (Item.arg v :: X).takeWhile Item.isDash = [] := rfl
  rw [this, List.length_nil]
  dsimp only
  rw [List.drop_zero]
  dsimp only
  rw [h]
  cases p.may <;> rfl

theorem args_nodash (vs : List Text) {R : List Item} (h : R.takeWhile Item.isDash = []) : (vs.map Item.arg ++ R).takeWhile Item.isDash = [] := by
  cases vs with
  | nil => exact h
  | cons v vs => rfl

theorem matchAll_more : ∀ (ps : List Pos) (vs : List Text) {R : List Item}, vs.length = ps.length → R.takeWhile Item.isDash = [] →
    matchAll ps (vs.map Item.arg ++ R) = some (List.replicate vs.length 1)
  | [], [], _, _, _ => rfl
  | p :: ps, v :: vs, R, h, hR => by
    have ih := matchAll_more ps vs (by simpa using h) hR
    rw [matchAll, List.map_cons, List.cons_append, lengths_more p v (args_nodash vs hR)]
    have e : (Item.arg v :: (vs.map Item.arg ++ R)).drop 1 = vs.map Item.arg ++ R := rfl
    cases p.may
    · rw [if_neg (by simp), List.findSome?_cons, e, ih]; rfl
    · rw [if_pos rfl, List.findSome?_cons, e, ih]; rfl

theorem consume_more {ps : List Pos} {vs : List Text} {R : List Item} {s : State} (hs : Sorted ps) (hl : vs.length = ps.length) (hR : R.takeWhile Item.isDash = []) (hv : ∀ v ∈ vs, v ≠ "--".toList) :
    consumePositionals ps (vs.map Item.arg ++ R) s = ([], R, afterPos ps vs s) := by
  have hm : mustCount ps ≤ vs.length := hl ▸ mustCount_le ps
  cases ps with
  | nil =>
    obtain rfl : vs = [] := List.length_eq_zero_iff.mp (by simpa using hl)
    rfl
  | cons p ps =>
    unfold consumePositionals
    rw [matchPartial_all (by simp) (matchAll_more _ vs hl hR)]
    dsimp only
    have := takeAll_args _ vs R s hs hm (Nat.le_of_eq hl) hv
    rw [hl, Nat.sub_self, List.replicate_zero, List.append_nil] at this
    rw [hl, this, List.length_replicate, List.drop_length]

theorem consume_more_dashed {ps : List Pos} {v : Text} {vs : List Text} {R : List Item} {s : State} (hs : Sorted ps) (hl : (v :: vs).length = ps.length) (hR : R.takeWhile Item.isDash = []) (hv : ∀ w ∈ vs, w ≠ "--".toList) :
    consumePositionals ps (.dash :: ((v :: vs).map Item.arg ++ R)) s = ([], R, afterPos ps (v :: vs) s) := by
  match ps with
  | [] => simp at hl
  | p :: ps =>
    have hl' : vs.length = ps.length := by simpa using hl
    have hlen : ∃ ns, lengths p (.dash :: ((v :: vs).map Item.arg ++ R)) = 2 :: ns := by
      unfold lengths
      have : (Item.dash :: ((v :: vs).map Item.arg ++ R)).takeWhile Item.isDash = [.dash] := rfl
      rw [this, List.length_singleton]
      dsimp only
      have e : (Item.dash :: ((v :: vs).map Item.arg ++ R)).drop 1 = .arg v :: (vs.map Item.arg ++ R) := rfl
      rw [e]
      dsimp only
      rw [args_nodash vs hR]
      cases p.may
      · exact ⟨[], rfl⟩
      · exact ⟨[1, 0], rfl⟩
    obtain ⟨ns, hns⟩ := hlen
    have hma : matchAll (p :: ps) (.dash :: ((v :: vs).map Item.arg ++ R)) = some (2 :: List.replicate vs.length 1) := by
      rw [matchAll, hns, List.findSome?_cons]
      have e : (Item.dash :: ((v :: vs).map Item.arg ++ R)).drop 2 = vs.map Item.arg ++ R := rfl
      rw [e, matchAll_more ps vs hl' hR]
      rfl
    unfold consumePositionals
    rw [matchPartial_all (by simp) hma]
    dsimp only
    have e1 : (Item.dash :: ((v :: vs).map Item.arg ++ R)).take 2 = [.dash, .arg v] := rfl
    have e2 : (Item.dash :: ((v :: vs).map Item.arg ++ R)).drop 2 = vs.map Item.arg ++ R := rfl
    have e3 : takePos p (List.map Item.text [.dash, .arg v]) s = { s with values := (p.dest, [v]) :: s.values, seenPos := p :: s.seenPos } := by
      unfold takePos
      have : (List.map Item.text [.dash, .arg v]).erase "--".toList = [v] := by
        show ["--".toList, v].erase _ = _
        rw [List.erase_cons_head]
      rw [this, if_neg (by simp)]
    have := takeAll_args ps vs R { s with values := (p.dest, [v]) :: s.values, seenPos := p :: s.seenPos } (List.Pairwise.of_cons hs) (hl' ▸ mustCount_le ps) (Nat.le_of_eq hl') hv
    rw [hl', Nat.sub_self, List.replicate_zero, List.append_nil] at this
    rw [List.zip_cons_cons, takeAll, e1, e2, e3, hl', this, List.length_cons, List.length_replicate]
    have : (p :: ps).drop (ps.length + 1) = [] := List.drop_length (l := p :: ps)
    rw [this]
    unfold afterPos
    simp

theorem skip_args (ws : List Text) {t : Tok} {x : Text} {R : List Item} : (ws.map Item.arg ++ .option t x :: R).takeWhile (fun i => !i.isOption) = ws.map Item.arg ∧
    (ws.map Item.arg ++ .option t x :: R).dropWhile (fun i => !i.isOption) = .option t x :: R := by
  induction ws with
  | nil => exact ⟨rfl, rfl⟩
  | cons w ws ih => exact ⟨congrArg (_ :: ·) ih.1, ih.2⟩

/-- C99: more positional arguments before the options than the program has: the call is refused. -/
theorem C99_many {P : Parser} (hP : Sane P) {isInt : Text → Bool} {gs : List Group} {l : List Text} (hw : Written P gs l) (hf : ∀ g ∈ gs, Fits isInt g)
    {vs : List Text} (hv : ∀ v ∈ vs, Value v) (h : P.pos.length < vs.length) : parse P isInt (vs ++ l) = .error .usage := by
  obtain ⟨bs, hb, hc⟩ := written_blocks hP hw
  have hc' : classify P (vs ++ l) = .ok (vs.map Item.arg ++ bs) := by
    have := hc []
    rw [List.append_nil] at this
    rw [classify_values _ hv, this]
    simp [classify, Except.map]
  have hd : ∀ v ∈ vs, v ≠ "--".toList := by rintro v h rfl; exact hv _ h rfl
  have hs := sane_sorted hP
  obtain ⟨us, ws, rfl, hu⟩ : ∃ us ws : List Text, vs = us ++ ws ∧ us.length = P.pos.length := ⟨vs.take P.pos.length, vs.drop P.pos.length, (List.take_append_drop _ _).symm, by rw [List.length_take]; omega⟩
  have hws : ws ≠ [] := by rintro rfl; rw [List.append_nil] at h; omega
  have hR : (ws.map Item.arg ++ bs).takeWhile Item.isDash = [] := by
    cases ws with
    | nil => exact absurd rfl hws
    | cons w ws => rfl
  rw [List.map_append, List.append_assoc (List.map Item.arg us)] at hc'
  have hcons := consume_more (s := {}) hs hu hR (fun v hv' => hd v (List.mem_append_left _ hv'))
  have hpos : P.pos ≠ [] := by
    have := sane_must hP
    have h2 := mustCount_le P.pos
    intro e
    rw [e] at h2
    have : 0 < mustCount P.pos := this
    rw [e] at this
    simp [mustCount] at this
  obtain ⟨u, us, rfl⟩ : ∃ u us', us = u :: us' := by
    cases us with
    | nil => exact absurd (List.length_eq_zero_iff.mp hu.symm) hpos
    | cons u us => exact ⟨u, us, rfl⟩
  by_cases hg : gs = []
  · subst hg
    obtain rfl : bs = [] := hb
    have hlo : loop P isInt (((u :: us).map Item.arg ++ (ws.map Item.arg ++ [])).length + 1) P.pos ((u :: us).map Item.arg ++ (ws.map Item.arg ++ [])) {} = .ok (P.pos, (u :: us).map Item.arg ++ (ws.map Item.arg ++ []), {}) := by
      unfold loop
      rw [if_neg (by rw [List.append_nil, ← List.map_append, args_any]; simp)]
    exact parse_missing hc' hlo hcons (Or.inr (Or.inr (by simpa using hws)))
  · obtain ⟨g, gs, rfl⟩ : ∃ g gs', gs = g :: gs' := by
      cases gs with
      | nil => exact absurd rfl hg
      | cons g gs => exact ⟨g, gs, rfl⟩
    have hlen := blocks_length hb
    obtain ⟨a, b, rfl, ⟨t, x, as, rfl, h1, h2⟩, hb'⟩ := hb
    obtain ⟨w, ws, rfl⟩ : ∃ w ws', ws = w :: ws' := by
      cases ws with
      | nil => exact absurd rfl hws
      | cons w ws => exact ⟨w, ws, rfl⟩
    set s1 : State := { afterPos P.pos (u :: us) {} with extras := (afterPos P.pos (u :: us) {}).extras ++ w :: ws } with hs1
    have hlo : loop P isInt (((u :: us).map Item.arg ++ ((w :: ws).map Item.arg ++ (Item.option t x :: as.map Item.arg ++ b))).length + 1) P.pos
        ((u :: us).map Item.arg ++ ((w :: ws).map Item.arg ++ (Item.option t x :: as.map Item.arg ++ b))) {} = .ok ([], [], after gs (after [g] s1)) := by
      have hany : ((w :: ws).map Item.arg ++ (Item.option t x :: as.map Item.arg ++ b)).any Item.isOption = true := by
        simp [Item.isOption]
      rw [loop_first hany hcons]
      have hfu : ∃ fuel, ((u :: us).map Item.arg ++ ((w :: ws).map Item.arg ++ (Item.option t x :: as.map Item.arg ++ b))).length = fuel + 1 ∧ gs.length < fuel := by
        simp only [List.length_append, List.length_cons, List.length_map] at hlen ⊢
        exact ⟨us.length + (ws.length + 1 + (as.length + 1 + b.length)), by omega, by omega⟩
      obtain ⟨fuel, hfuel, hlt⟩ := hfu
      rw [hfuel]
      unfold loop
      rw [if_pos (by simp [Item.isOption])]
      rw [List.map_cons, List.cons_append]
      dsimp only
      have hno : ∀ (items : List Item) (s : State), consumePositionals [] items s = ([], items, s) := fun items s => rfl
      rw [hno]
      dsimp only
      rw [if_neg (by simp)]
      have htw : (Item.arg w :: (ws.map Item.arg ++ (Item.option t x :: as.map Item.arg ++ b))).takeWhile (fun i => !i.isOption) = (w :: ws).map Item.arg := by
        rw [List.map_cons]
        exact congrArg (_ :: ·) (skip_args ws (t := t) (x := x)).1
      have hdw : (Item.arg w :: (ws.map Item.arg ++ (Item.option t x :: as.map Item.arg ++ b))).dropWhile (fun i => !i.isOption) = Item.option t x :: (as.map Item.arg ++ b) := (skip_args ws (t := t) (x := x)).2
      rw [htw, hdw]
      dsimp only
      rw [texts_args, consume_block (hf g (by simp)) h1 h2]
      · dsimp only
        have := loop_groups (P := P) (isInt := isInt) (T := []) rfl gs b (after [g] s1) fuel [] hb' (fun q hq => hf q (List.mem_cons_of_mem _ hq)) (by simp) hlt
        rwa [List.append_nil] at this
      · intro _ v R' e
        cases gs with
        | nil =>
          obtain rfl : b = [] := hb'
          cases e
        | cons g' gs => exact blocks_no_arg (T := []) hb' (by simp) v R' (by rw [List.append_nil]; exact e)
    exact parse_missing hc' hlo (ps' := []) (T' := []) (s' := after gs (after [g] s1)) rfl (Or.inr (Or.inl (by simp [after, hs1])))

/-- C99: more positional arguments after '--' than the program has: the call is refused. -/
theorem C99_many_dashes {P : Parser} (hP : Sane P) {isInt : Text → Bool} {gs : List Group} {l : List Text} (hw : Written P gs l) (hf : ∀ g ∈ gs, Fits isInt g)
    {vs : List Text} (hv : ∀ v ∈ vs, v ≠ "--".toList) (h : P.pos.length < vs.length) : parse P isInt (l ++ "--".toList :: vs) = .error .usage := by
  obtain ⟨bs, hb, hc⟩ := written_blocks hP hw
  have hc' : classify P (l ++ "--".toList :: vs) = .ok (bs ++ .dash :: vs.map Item.arg) := by
    rw [hc, classify, if_pos rfl]
    rfl
  have hs := sane_sorted hP
  obtain ⟨us, ws, rfl, hu⟩ : ∃ us ws : List Text, vs = us ++ ws ∧ us.length = P.pos.length := ⟨vs.take P.pos.length, vs.drop P.pos.length, (List.take_append_drop _ _).symm, by rw [List.length_take]; omega⟩
  have hws : ws ≠ [] := by rintro rfl; rw [List.append_nil] at h; omega
  obtain ⟨u, us, rfl⟩ : ∃ u us', us = u :: us' := by
    cases us with
    | nil =>
      have h1 : 0 < mustCount P.pos := sane_must hP
      have h2 := mustCount_le P.pos
      rw [← hu] at h2
      simp at h2
      omega
    | cons u us => exact ⟨u, us, rfl⟩
  have hR : (ws.map Item.arg).takeWhile Item.isDash = [] := by
    cases ws with
    | nil => rfl
    | cons w ws => rfl
  have hlen := blocks_length hb
  have hlo := loop_groups (P := P) (isInt := isInt) (T := .dash :: ((u :: us) ++ ws).map Item.arg) (by rw [List.any_cons, args_any]; rfl) gs bs {} ((bs ++ Item.dash :: ((u :: us) ++ ws).map Item.arg).length + 1) P.pos hb hf
    (by intro v T' e; cases e) (by rw [List.length_append]; omega)
  refine parse_missing hc' hlo (ps' := []) (T' := ws.map Item.arg) (s' := afterPos P.pos (u :: us) (after gs {})) ?_ (Or.inr (Or.inr (by simpa using hws)))
  rw [List.map_append]
  exact consume_more_dashed hs hu hR (fun w hw => hv w (List.mem_append_left _ (List.mem_cons_of_mem _ hw)))

/-! ### too few -/

/-- the number of arguments that are not options -/
def argCount (items : List Item) : Nat := (items.filter Item.isArg).length

theorem argCount_drop (n : Nat) (items : List Item) : argCount (items.take n) + argCount (items.drop n) = argCount items := by
  unfold argCount
  rw [← List.length_append, ← List.filter_append, List.take_append_drop]

theorem lengths_required {p : Pos} (hp : p.may = false) {items : List Item} {n : Nat} (h : n ∈ lengths p items) : 1 ≤ argCount (items.take n) := by
  unfold lengths at h
  dsimp only at h
  rw [hp, if_neg (by simp)] at h
  cases hx : items.drop (items.takeWhile Item.isDash).length with
  | nil => rw [hx] at h; cases h
  | cons i rest =>
    rw [hx] at h
    dsimp only at h
    split at h
    · next hi =>
      obtain ⟨k, -, rfl⟩ := List.mem_map.mp h
      have e : items[(items.takeWhile Item.isDash).length]? = some i := by
        have := congrArg List.head? hx
        rwa [List.head?_drop] at this
      have hmem : i ∈ items.take ((items.takeWhile Item.isDash).length + 1 + k) := by
        rw [List.mem_take_iff_getElem]
        obtain ⟨hlt, e⟩ := List.getElem?_eq_some_iff.mp e
        exact ⟨_, by omega, e⟩
      exact List.length_pos_of_mem (List.mem_filter.mpr ⟨hmem, hi⟩)
    · cases h

theorem matchAll_count : ∀ {ps : List Pos} {items : List Item} {c : List Nat}, matchAll ps items = some c → c.length = ps.length ∧ mustCount ps ≤ argCount items
  | [], _, c, h => by cases h; exact ⟨rfl, Nat.zero_le _⟩
  | p :: ps, items, c, h => by
    rw [matchAll] at h
    obtain ⟨n, hn, h⟩ := List.exists_of_findSome?_eq_some h
    obtain ⟨c', hc', rfl⟩ := Option.map_eq_some_iff.mp h
    obtain ⟨h1, h2⟩ := matchAll_count hc'
    refine ⟨by rw [List.length_cons, List.length_cons, h1], ?_⟩
    have hd := argCount_drop n items
    rw [mustCount_cons]
    cases hp : p.may
    · have := lengths_required hp hn
      simp
      omega
    · simp
      omega

theorem takeAll_seen : ∀ (l : List (Pos × Nat)) (items : List Item) (s : State), (takeAll l items s).2.seenPos = (l.map (·.1)).reverse ++ s.seenPos
  | [], _, _ => rfl
  | (p, n) :: l, items, s => by
    rw [takeAll, takeAll_seen l]
    unfold takePos
    dsimp only
    split <;> simp

theorem zip_fst {α β : Type} : ∀ (l : List α) (m : List β), (l.zip m).map (·.1) = l.take m.length
  | [], _ => by simp
  | _ :: _, [] => rfl
  | x :: l, y :: m => by rw [List.zip_cons_cons, List.map_cons, zip_fst l m]; rfl

/-- fewer arguments than must be given: one of the positional arguments gets none -/
theorem consume_missing {ps : List Pos} {items : List Item} {s : State} (hn : ps.Nodup) (hs : Sorted ps) (h : argCount items < mustCount ps) (h0 : s.seenPos = []) :
    ∃ q ∈ ps, q.may = false ∧ q ∉ (consumePositionals ps items s).2.2.seenPos := by
  obtain ⟨n, hc, hle⟩ : ∃ n, (matchPartial ps items).length = n ∧ mustCount (ps.take n) ≤ argCount items := by
    unfold matchPartial
    cases hx : (List.range ps.length).reverse.findSome? (fun i => matchAll (ps.take (i + 1)) items) with
    | none => exact ⟨0, rfl, by simp [mustCount]⟩
    | some c =>
      obtain ⟨i, -, hc⟩ := List.exists_of_findSome?_eq_some hx
      obtain ⟨h1, h2⟩ := matchAll_count hc
      refine ⟨c.length, rfl, ?_⟩
      rw [h1, List.length_take]
      rcases Nat.le_total (i + 1) ps.length with hl | hl
      · rw [Nat.min_eq_left hl]; exact h2
      · rw [Nat.min_eq_right hl, List.take_length]
        rwa [List.take_of_length_le hl] at h2
  have hseen : (consumePositionals ps items s).2.2.seenPos = (ps.take n).reverse := by
    unfold consumePositionals
    dsimp only
    rw [takeAll_seen, h0, List.append_nil]
    congr 1
    rw [zip_fst, hc]
  rw [hseen]
  have he := congrArg mustCount (List.take_append_drop n ps)
  rw [mustCount_append] at he
  have hpos : 0 < mustCount (ps.drop n) := by omega
  obtain ⟨q, hq⟩ := List.exists_mem_of_length_pos hpos
  obtain ⟨hq, hm⟩ := List.mem_filter.mp hq
  refine ⟨q, List.mem_of_mem_drop hq, by simpa using hm, ?_⟩
  intro hq'
  rw [List.mem_reverse] at hq'
  have := List.take_append_drop n ps
  rw [← this] at hn
  exact (List.nodup_append.mp hn).2.2 q hq' q hq rfl

/-- C99: fewer positional arguments after '--' than must be given: the call is refused. -/
theorem C99_few_dashes {P : Parser} (hP : Sane P) {isInt : Text → Bool} {gs : List Group} {l : List Text} (hw : Written P gs l) (hf : ∀ g ∈ gs, Fits isInt g)
    {vs : List Text} (h : vs.length < must P) : parse P isInt (l ++ "--".toList :: vs) = .error .usage := by
  obtain ⟨bs, hb, hc⟩ := written_blocks hP hw
  have hc' : classify P (l ++ "--".toList :: vs) = .ok (bs ++ .dash :: vs.map Item.arg) := by
    rw [hc, classify, if_pos rfl]
    rfl
  have hlen := blocks_length hb
  have hlo := loop_groups (P := P) (isInt := isInt) (T := .dash :: vs.map Item.arg) (by rw [List.any_cons, args_any]; rfl) gs bs {} ((bs ++ Item.dash :: vs.map Item.arg).length + 1) P.pos hb hf
    (by intro v T' e; cases e) (by rw [List.length_append]; omega)
  have hn : P.pos.Nodup := List.Nodup.of_map _ (List.nodup_append.mp hP.dests).1
  refine parse_missing hc' hlo rfl (Or.inl ?_)
  refine consume_missing hn (sane_sorted hP) ?_ rfl
  have : argCount (.dash :: vs.map Item.arg) ≤ vs.length := by
    unfold argCount
    rw [List.filter_cons_of_neg (by simp [Item.isArg])]
    exact (List.length_filter_le _ _).trans (by rw [List.length_map])
  exact Nat.lt_of_le_of_lt this h

/-! ### examples: calls of score.py, which has two or three positional arguments -/

example : parse scoreParser (fun _ => true) ["t".toList, "d".toList, "s".toList, "x".toList] = .error .usage :=
  C99_many sane_score (gs := []) .nil (by simp) (vs := ["t".toList, "d".toList, "s".toList, "x".toList]) (by simp [Value]) (by decide)

example : parse scoreParser (fun _ => true) ["--".toList, "-t".toList, "d".toList, "s".toList, "x".toList] = .error .usage :=
  C99_many_dashes sane_score (gs := []) .nil (by simp) (vs := ["-t".toList, "d".toList, "s".toList, "x".toList]) (by decide) (by decide)

example : parse scoreParser (fun _ => true) ["--".toList, "-t".toList] = .error .usage :=
  C99_few_dashes sane_score (gs := []) .nil (by simp) (vs := ["-t".toList]) (by decide)

/-- and a call of task.py with options -/
example : parse taskParser (fun _ => true) ["d".toList, "o".toList, "x".toList, "-o".toList, "c".toList] = .error .usage := by decide +kernel

#print axioms C99_many
#print axioms C99_many_dashes
#print axioms C99_few_dashes

end ABX.Argparse
