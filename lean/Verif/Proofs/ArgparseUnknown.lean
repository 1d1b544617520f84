import Verif.Proofs.ArgparseLoop
/-!
Lemmas about words that are not options.
-/
namespace ABX.Argparse
open Database (Text)
open Spec

/-- something is left over, or will be -/
def Bad (items : List Item) (s : State) : Prop := s.extras ≠ [] ∨ ∃ t x, Item.option t x ∈ items ∧ t.action = none

/-- no option is among the first `n` -/
def Free (n : Nat) (items : List Item) : Prop := ∀ i ∈ items.take n, i.isOption = false

theorem bad_drop {items : List Item} {n : Nat} {s : State} (hf : Free n items) (h : Bad items s) : Bad (items.drop n) s := by
  rcases h with h | ⟨t, x, h, ht⟩
  · exact Or.inl h
  · refine Or.inr ⟨t, x, ?_, ht⟩
    rw [← List.take_append_drop n items, List.mem_append] at h
    rcases h with h | h
    · have := hf _ h; cases this
    · exact h

theorem takeOpt_extras {isInt : Text → Bool} {o : Opt} {args : List Text} {s s' : State} (h : takeOpt isInt o args s = .ok s') : s'.extras = s.extras := by
  unfold takeOpt at h
  split at h
  · cases h
  · split at h
    · cases h
    · cases h; rfl

theorem takeOpts_extras {isInt : Text → Bool} : ∀ {l : List (Opt × List Text)} {s s' : State}, takeOpts isInt l s = .ok s' → s'.extras = s.extras
  | [], s, s', h => by cases h; rfl
  | (o, args) :: l, s, s', h => by
    rw [takeOpts] at h
    cases hx : takeOpt isInt o args s with
    | error e => rw [hx] at h; cases h
    | ok s1 =>
      rw [hx] at h
      rw [takeOpts_extras h, takeOpt_extras hx]

theorem takeWhile_free (items : List Item) : Free (items.takeWhile Item.isArg).length items := by
  intro i hi
  have : items.take (items.takeWhile Item.isArg).length = items.takeWhile Item.isArg := by
    conv => lhs; rw [← List.takeWhile_append_dropWhile (p := Item.isArg) (l := items)]
    rw [List.take_left' (by rw [List.takeWhile_append_dropWhile])]
  rw [this] at hi
  have := List.all_eq_true.mp (List.all_takeWhile (l := items) (p := Item.isArg)) i hi
  cases i <;> first | rfl | cases this

theorem matchArgument_free {o : Opt} {items : List Item} {n : Nat} (h : matchArgument o items = .ok n) : Free n items := by
  unfold matchArgument at h
  split at h
  · cases h; intro i hi; simp at hi
  · cases h; intro i hi; simp at hi
  · split at h
    · next i rest =>
      split at h
      · next ha =>
        cases h
        intro j hj
        simp at hj
        subst hj
        cases j <;> first | rfl | cases ha
      · cases h
    · cases h
  · cases h
    split
    · next ha =>
      cases items with
      | nil => intro i hi; simp at hi
      | cons j rest =>
        intro i hi
        simp at hi
        subst hi
        simp at ha
        cases i <;> first | rfl | cases ha
    · intro i hi; simp at hi
  · split at h
    · cases h
    · cases h; exact takeWhile_free items

theorem takeFollowing_bad {isInt : Text → Bool} {o : Opt} {acc : List (Opt × List Text)} {items items' : List Item} {s s' : State} (h : takeFollowing isInt o acc items s = .ok (items', s')) (hb : Bad items s) :
    Bad items' s' ∧ items'.length ≤ items.length := by
  unfold takeFollowing at h
  cases hm : matchArgument o items with
  | error e => rw [hm] at h; cases h
  | ok n =>
    rw [hm] at h
    dsimp only at h
    cases ht : takeOpts isInt (acc ++ [(o, (items.take n).map Item.text)]) s with
    | error e => rw [ht] at h; cases h
    | ok s1 =>
      rw [ht] at h
      cases h
      refine ⟨?_, by rw [List.length_drop]; omega⟩
      have hb := bad_drop (matchArgument_free hm) hb
      rcases hb with h | h
      · exact Or.inl (by rw [takeOpts_extras ht]; exact h)
      · exact Or.inr h

theorem consumeOptional_bad {P : Parser} {isInt : Text → Bool} {t : Tok} {text : Text} {items items' : List Item} {s s' : State} (h : consumeOptional P isInt t text items s = .ok (items', s')) (hb : Bad (.option t text :: items) s) :
    Bad items' s' ∧ items'.length ≤ items.length := by
  unfold consumeOptional at h
  cases ha : t.action with
  | none =>
    rw [ha] at h
    cases h
    exact ⟨Or.inl (by simp), Nat.le_refl _⟩
  | some o =>
    have hb : Bad items s := by
      rcases hb with h | ⟨t', x, h, ht⟩
      · exact Or.inl h
      · rcases List.mem_cons.mp h with h | h
        · cases h; rw [ha] at ht; cases ht
        · exact Or.inr ⟨t', x, h, ht⟩
    rw [ha] at h
    dsimp only at h
    cases he : t.explicit with
    | none => rw [he] at h; exact takeFollowing_bad h hb
    | some e =>
      rw [he] at h
      dsimp only at h
      cases hc : chain P o t.string t.sep [] e with
      | error e => rw [hc] at h; cases h
      | ok r =>
        obtain ⟨acc, extra, next⟩ := r
        rw [hc] at h
        cases next with
        | none =>
          dsimp only at h
          cases ht : takeOpts isInt acc { s with extras := s.extras ++ extra.toList } with
          | error e => rw [ht] at h; cases h
          | ok s1 =>
            rw [ht] at h
            cases h
            refine ⟨?_, Nat.le_refl _⟩
            rcases hb with h | h
            · exact Or.inl (by rw [takeOpts_extras ht]; simp [h])
            · exact Or.inr h
        | some o' => exact takeFollowing_bad h hb

theorem lengths_free {p : Pos} {items : List Item} {n : Nat} (h : n ∈ lengths p items) : Free n items := by
  -- the arguments are dashes, perhaps a value, and dashes
  have key : ∀ (k : Nat), k ≤ (items.takeWhile Item.isDash).length → Free k items := by
    intro k hk i hi
    have hi : i ∈ items.takeWhile Item.isDash := by
      conv at hi => rw [← List.takeWhile_append_dropWhile (p := Item.isDash) (l := items)]
      rw [List.take_append_of_le_length hk] at hi
      exact List.mem_of_mem_take hi
    have := List.all_eq_true.mp (List.all_takeWhile (l := items) (p := Item.isDash)) i hi
    cases i <;> first | rfl | cases this
  have full : ∀ n ∈ (match items.drop (items.takeWhile Item.isDash).length with
    | i :: rest => if i.isArg then (List.range ((rest.takeWhile Item.isDash).length + 1)).reverse.map (fun k => (items.takeWhile Item.isDash).length + 1 + k) else []
    | [] => []), Free n items := by
    intro n hn
    cases hd : items.drop (items.takeWhile Item.isDash).length with
    | nil => rw [hd] at hn; cases hn
    | cons a rest =>
      rw [hd] at hn
      dsimp only at hn
      split at hn
      · next ha =>
        simp only [List.mem_map, List.mem_reverse, List.mem_range] at hn
        obtain ⟨k, hk, rfl⟩ := hn
        intro i hi
        have e : items = items.takeWhile Item.isDash ++ a :: rest := by
          have e1 := List.take_append_drop (items.takeWhile Item.isDash).length items
          rw [hd] at e1
          rw [← e1]
          congr 1
          conv => lhs; rw [← List.takeWhile_append_dropWhile (p := Item.isDash) (l := items)]
          rw [List.take_left' (by rw [List.takeWhile_append_dropWhile])]
          rw [e1]
        have hi' : i ∈ items.takeWhile Item.isDash ∨ i = a ∨ i ∈ rest.takeWhile Item.isDash := by
          have hi : i ∈ (items.takeWhile Item.isDash ++ a :: rest).take ((items.takeWhile Item.isDash).length + 1 + k) := by
            rw [← e]; exact hi
          rw [show (items.takeWhile Item.isDash).length + 1 + k = (items.takeWhile Item.isDash).length + (k + 1) by omega, List.take_append, List.take_of_length_le (by omega), List.mem_append] at hi
          rcases hi with hi | hi
          · exact Or.inl hi
          · rw [show (items.takeWhile Item.isDash).length + (k + 1) - (items.takeWhile Item.isDash).length = k + 1 by omega, List.take_succ_cons, List.mem_cons] at hi
            rcases hi with hi | hi
            · exact Or.inr (Or.inl hi)
            · refine Or.inr (Or.inr ?_)
              conv at hi => rw [← List.takeWhile_append_dropWhile (p := Item.isDash) (l := rest)]
              rw [List.take_append_of_le_length (by omega)] at hi
              exact List.mem_of_mem_take hi
        rcases hi' with hi | rfl | hi
        · have := List.all_eq_true.mp (List.all_takeWhile (l := items) (p := Item.isDash)) i hi
          cases i <;> first | rfl | cases this
        · cases i <;> first | rfl | cases ha
        · have := List.all_eq_true.mp (List.all_takeWhile (l := rest) (p := Item.isDash)) i hi
          cases i <;> first | rfl | cases this
      · cases hn
  unfold lengths at h
  dsimp only at h
  split at h
  · rcases List.mem_append.mp h with h | h
    · exact full n h
    · rw [List.mem_reverse, List.mem_range] at h
      exact key n (by omega)
  · exact full n h

theorem takePos_extras (p : Pos) (args : List Text) (s : State) : (takePos p args s).extras = s.extras := by
  unfold takePos
  dsimp only
  split <;> rfl

/-- positional arguments never take an option -/
theorem takeAll_bad : ∀ (ps : List Pos) (items : List Item) (c : List Nat) (s : State), matchAll ps items = some c → Bad items s → Bad (takeAll (ps.zip c) items s).1 (takeAll (ps.zip c) items s).2
  | [], items, c, s, _, hb => hb
  | p :: ps, items, c, s, h, hb => by
    rw [matchAll, List.findSome?_eq_some_iff] at h
    obtain ⟨_, n, _, hl, h, _⟩ := h
    have hn : n ∈ lengths p items := by rw [hl]; simp
    rw [Option.map_eq_some_iff] at h
    obtain ⟨c', h, rfl⟩ := h
    rw [List.zip_cons_cons, takeAll]
    refine takeAll_bad ps _ c' _ h ?_
    rcases bad_drop (lengths_free hn) hb with h | h
    · exact Or.inl (by rw [takePos_extras]; exact h)
    · exact Or.inr h

theorem matchAll_length : ∀ {ps : List Pos} {items : List Item} {c : List Nat}, matchAll ps items = some c → c.length = ps.length
  | [], _, _, h => by cases h; rfl
  | p :: ps, items, c, h => by
    rw [matchAll, List.findSome?_eq_some_iff] at h
    obtain ⟨_, n, _, -, h, _⟩ := h
    rw [Option.map_eq_some_iff] at h
    obtain ⟨c', h, rfl⟩ := h
    rw [List.length_cons, List.length_cons, matchAll_length h]

theorem consumePositionals_bad (ps : List Pos) (items : List Item) (s : State) (hb : Bad items s) : Bad (consumePositionals ps items s).2.1 (consumePositionals ps items s).2.2 := by
  unfold consumePositionals
  dsimp only
  unfold matchPartial
  cases hx : (List.range ps.length).reverse.findSome? (fun i => matchAll (ps.take (i + 1)) items) with
  | none =>
    rw [Option.getD_none, List.zip_nil_right]
    exact hb
  | some c =>
    rw [Option.getD_some]
    obtain ⟨_, i, _, -, h, _⟩ := List.findSome?_eq_some_iff.mp hx
    have hl := matchAll_length h
    have hle : c.length ≤ ps.length := by rw [hl, List.length_take]; omega
    have e : ps.zip c = (ps.take (i + 1)).zip c := by
      rw [List.zip_eq_zip_take_min, Nat.min_eq_right hle, List.take_of_length_le (l := c) (Nat.le_refl _)]
      congr 1
      rw [hl, List.length_take]
      by_cases hi : i + 1 ≤ ps.length
      · rw [Nat.min_eq_left hi]
      · rw [Nat.min_eq_right (by omega), List.take_of_length_le (Nat.le_refl _), List.take_of_length_le (by omega)]
    rw [e]
    exact takeAll_bad _ _ _ _ h hb

theorem takeAll_length : ∀ (l : List (Pos × Nat)) (items : List Item) (s : State), (takeAll l items s).1.length ≤ items.length
  | [], _, _ => Nat.le_refl _
  | (p, n) :: l, items, s => by
    rw [takeAll]
    exact Nat.le_trans (takeAll_length l _ _) (by rw [List.length_drop]; omega)

theorem takeAll_extras : ∀ (l : List (Pos × Nat)) (items : List Item) (s : State), (takeAll l items s).2.extras = s.extras
  | [], _, _ => rfl
  | (p, n) :: l, items, s => by rw [takeAll, takeAll_extras, takePos_extras]

theorem consumePositionals_extras (ps : List Pos) (items : List Item) (s : State) : (consumePositionals ps items s).2.2.extras = s.extras := takeAll_extras _ _ _

/-- the words that are not options are left over at the end -/
theorem loop_bad {P : Parser} {isInt : Text → Bool} : ∀ (fuel : Nat) (ps : List Pos) (items : List Item) (s : State) (ps' : List Pos) (T : List Item) (s' : State), items.length < fuel → Bad items s →
    loop P isInt fuel ps items s = .ok (ps', T, s') → s'.extras ≠ []
  | fuel + 1, ps, items, s, ps', T, s', hfu, hb, h => by
    unfold loop at h
    by_cases hany : items.any Item.isOption = true
    · rw [if_pos hany] at h
      have hstep : ∀ (t : Tok) (x : Text) (rest : List Item) (ps1 : List Pos) (s1 : State), rest.length < fuel → Bad (.option t x :: rest) s1 → (match consumeOptional P isInt t x rest s1 with
          | .error e => Except.error e
          | .ok (rest, s) => loop P isInt fuel ps1 rest s) = .ok (ps', T, s') → s'.extras ≠ [] := by
        intro t x rest ps1 s1 hlen hb h
        cases hc : consumeOptional P isInt t x rest s1 with
        | error e => rw [hc] at h; cases h
        | ok r =>
          obtain ⟨rest', s2⟩ := r
          rw [hc] at h
          obtain ⟨h1, h2⟩ := consumeOptional_bad hc hb
          exact loop_bad fuel ps1 rest' s2 ps' T s' (by omega) h1 h
      split at h
      · next t x rest => exact hstep t x rest ps s (by simpa using hfu) hb h
      · dsimp only at h
        split at h
        · next hlt => exact loop_bad fuel _ _ _ ps' T s' (by omega) (consumePositionals_bad ps items s hb) h
        · have hbad : Bad (items.dropWhile (fun i => !i.isOption)) (consumePositionals ps items s).2.2 := by
            rcases hb with h | ⟨t, x, h, ht⟩
            · exact Or.inl (by rw [consumePositionals_extras]; exact h)
            · refine Or.inr ⟨t, x, ?_, ht⟩
              rw [← List.takeWhile_append_dropWhile (p := fun i => !i.isOption) (l := items), List.mem_append] at h
              rcases h with h | h
              · have := List.all_eq_true.mp (List.all_takeWhile (l := items) (p := fun i => !i.isOption)) _ h
                cases this
              · exact h
          have hlen : (items.dropWhile (fun i => !i.isOption)).length ≤ items.length := (List.dropWhile_sublist _).length_le
          cases hd : items.dropWhile (fun i => !i.isOption) with
          | nil =>
            rw [List.dropWhile_eq_nil_iff] at hd
            rw [List.any_eq_true] at hany
            obtain ⟨i, hi, ho⟩ := hany
            have := hd i hi
            rw [ho] at this
            cases this
          | cons i rest =>
            have hi : i.isOption = true := by
              have h2 := List.head?_dropWhile_not (fun i => !i.isOption) items
              rw [hd] at h2
              simpa using h2
            rw [hd] at h hbad hlen
            cases i with
            | option t x =>
              dsimp only at h
              refine hstep t x rest _ _ (by rw [List.length_cons] at hlen; omega) ?_ h
              rcases hbad with h | h
              · exact Or.inl (by simp [h])
              · exact Or.inr h
            | dash => cases hi
            | arg v => cases hi
    · rw [if_neg hany] at h
      cases h
      rcases hb with h | ⟨t, x, h, ht⟩
      · exact h
      · exact absurd (List.any_eq_true.mpr ⟨_, h, rfl⟩) hany

theorem parse_bad {P : Parser} {isInt : Text → Bool} {argv : List Text} {items : List Item} (h1 : classify P argv = .ok items) (hb : Bad items {}) : ∃ e, parse P isInt argv = .error e := by
  cases hl : loop P isInt (items.length + 1) P.pos items {} with
  | error e =>
    refine ⟨e, ?_⟩
    unfold parse
    rw [h1]
    dsimp only
    rw [hl]
  | ok r =>
    obtain ⟨ps, T, s⟩ := r
    have hx := loop_bad _ _ _ _ _ _ _ (by omega) hb hl
    refine ⟨.usage, parse_missing h1 hl rfl (Or.inr (Or.inl ?_))⟩
    rw [takeAll_extras]
    exact hx

/-- what is before a word does not change how it is understood -/
theorem classify_mem {P : Parser} {s : Text} {t : Tok} (h2 : parseOptional P s = .ok (some t)) (h1 : s ≠ "--".toList) : ∀ (a b : List Text), "--".toList ∉ a →
    (∃ e, classify P (a ++ s :: b) = .error e) ∨ ∃ items, classify P (a ++ s :: b) = .ok items ∧ .option t s ∈ items
  | [], b, _ => by
    rw [List.nil_append, classify_option h1 h2]
    cases classify P b with
    | error e => exact Or.inl ⟨e, rfl⟩
    | ok items => exact Or.inr ⟨_, rfl, by simp⟩
  | x :: a, b, h => by
    rw [List.mem_cons, not_or] at h
    rw [List.cons_append, classify, if_neg (fun e => h.1 e.symm)]
    cases parseOptional P x with
    | error e => exact Or.inl ⟨e, rfl⟩
    | ok tok =>
      rcases classify_mem h2 h1 a b h.2 with ⟨e, he⟩ | ⟨items, he, hm⟩
      · rw [he]; exact Or.inl ⟨e, rfl⟩
      · rw [he]; exact Or.inr ⟨_, rfl, List.mem_cons_of_mem _ hm⟩

theorem parseOptional_usage {P : Parser} {s : Text} {e : Exit} (h : parseOptional P s = .error e) : e = .usage := by
  unfold parseOptional at h
  repeat' split at h
  all_goals first | cases h; rfl | cases h

theorem classify_usage {P : Parser} : ∀ {l : List Text} {e : Exit}, classify P l = .error e → e = .usage
  | [], e, h => by cases h
  | s :: l, e, h => by
    rw [classify] at h
    split at h
    · cases h
    · split at h
      · next hx => cases h; exact parseOptional_usage hx
      · split at h
        · next hx => cases h; exact classify_usage hx
        · cases h

theorem classify_error {P : Parser} {s : Text} (h2 : parseOptional P s = .error .usage) (h1 : s ≠ "--".toList) : ∀ (a b : List Text), "--".toList ∉ a → classify P (a ++ s :: b) = .error .usage
  | [], b, _ => by rw [List.nil_append, classify, if_neg h1, h2]
  | x :: a, b, h => by
    rw [List.mem_cons, not_or] at h
    rw [List.cons_append, classify, if_neg (fun e => h.1 e.symm), classify_error h2 h1 a b h.2]
    cases hx : parseOptional P x with
    | error e => rw [parseOptional_usage hx]
    | ok tok => rfl

end ABX.Argparse
