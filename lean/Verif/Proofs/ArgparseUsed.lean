import Verif.Proofs.ArgparseUnknown
/-!
Lemmas: every word is used, and nothing else is stored.
-/
namespace ABX.Argparse
open Database (Text)
open Spec

/-! ### every word is used -/

/-- the word is still to be read, or left over, or stored -/
def Covered (v : Text) (items : List Item) (s : State) : Prop := .arg v ∈ items ∨ v ∈ s.extras ∨ ∃ e ∈ s.values, v ∈ e.2

/-- what is left over and stored stays so -/
def Grows (s s' : State) : Prop := (∀ v ∈ s.extras, v ∈ s'.extras) ∧ ∀ e ∈ s.values, e ∈ s'.values

theorem Grows.refl (s : State) : Grows s s := ⟨fun _ h => h, fun _ h => h⟩
theorem Grows.trans {a b c : State} (h : Grows a b) (h' : Grows b c) : Grows a c := ⟨fun v hv => h'.1 v (h.1 v hv), fun e he => h'.2 e (h.2 e he)⟩

theorem Covered.grow {v : Text} {items : List Item} {s s' : State} (h : Covered v items s) (hg : Grows s s') : Covered v items s' := by
  rcases h with h | h | ⟨e, he, hv⟩
  · exact Or.inl h
  · exact Or.inr (Or.inl (hg.1 v h))
  · exact Or.inr (Or.inr ⟨e, hg.2 e he, hv⟩)

theorem takeOpt_grows {isInt : Text → Bool} {o : Opt} {args : List Text} {s s' : State} (h : takeOpt isInt o args s = .ok s') : Grows s s' ∧ (o.dest, args) ∈ s'.values := by
  unfold takeOpt at h
  split at h
  · cases h
  · split at h
    · cases h
    · cases h; exact ⟨⟨fun _ h => h, fun e he => List.mem_cons_of_mem _ he⟩, List.mem_cons_self⟩

theorem takeOpts_grows {isInt : Text → Bool} : ∀ {l : List (Opt × List Text)} {s s' : State}, takeOpts isInt l s = .ok s' → Grows s s' ∧ ∀ q ∈ l, (q.1.dest, q.2) ∈ s'.values
  | [], s, s', h => by cases h; exact ⟨Grows.refl s, by simp⟩
  | (o, args) :: l, s, s', h => by
    rw [takeOpts] at h
    cases hx : takeOpt isInt o args s with
    | error e => rw [hx] at h; cases h
    | ok s1 =>
      rw [hx] at h
      obtain ⟨h1, h2⟩ := takeOpt_grows hx
      obtain ⟨h3, h4⟩ := takeOpts_grows h
      refine ⟨h1.trans h3, fun q hq => ?_⟩
      rcases List.mem_cons.mp hq with rfl | hq
      · exact h3.2 _ h2
      · exact h4 q hq

theorem takeFollowing_covered {isInt : Text → Bool} {o : Opt} {acc : List (Opt × List Text)} {items items' : List Item} {s s' : State} (h : takeFollowing isInt o acc items s = .ok (items', s')) {v : Text} (hc : Covered v items s) :
    Covered v items' s' := by
  unfold takeFollowing at h
  cases hm : matchArgument o items with
  | error e => rw [hm] at h; cases h
  | ok n =>
    rw [hm] at h
    dsimp only at h
    cases ht : takeOpts isInt (acc ++ [(o, (items.take n).map Item.text)]) s with
    | error e => rw [ht] at h; cases h
    | ok s1 =>
      rw [ht] at h
      cases h
      obtain ⟨h1, h2⟩ := takeOpts_grows ht
      rcases hc.grow h1 with h | h
      · rw [← List.take_append_drop n items, List.mem_append] at h
        rcases h with h | h
        · exact Or.inr (Or.inr ⟨_, h2 (o, (items.take n).map Item.text) (by simp), List.mem_map.mpr ⟨_, h, rfl⟩⟩)
        · exact Or.inl h
      · exact Or.inr h

theorem consumeOptional_covered {P : Parser} {isInt : Text → Bool} {t : Tok} {text : Text} {items items' : List Item} {s s' : State} (h : consumeOptional P isInt t text items s = .ok (items', s')) {v : Text} (hc : Covered v items s) :
    Covered v items' s' := by
  unfold consumeOptional at h
  cases ha : t.action with
  | none =>
    rw [ha] at h
    cases h
    exact hc.grow ⟨fun v hv => List.mem_append_left _ hv, fun _ he => he⟩
  | some o =>
    rw [ha] at h
    dsimp only at h
    cases he : t.explicit with
    | none => rw [he] at h; exact takeFollowing_covered h hc
    | some e =>
      rw [he] at h
      dsimp only at h
      cases hx : chain P o t.string t.sep [] e with
      | error e => rw [hx] at h; cases h
      | ok r =>
        obtain ⟨acc, extra, next⟩ := r
        rw [hx] at h
        cases next with
        | none =>
          dsimp only at h
          cases ht : takeOpts isInt acc { s with extras := s.extras ++ extra.toList } with
          | error e => rw [ht] at h; cases h
          | ok s1 =>
            rw [ht] at h
            cases h
            exact (hc.grow (s' := { s with extras := s.extras ++ extra.toList }) ⟨fun v hv => List.mem_append_left _ hv, fun _ he => he⟩).grow (takeOpts_grows ht).1
        | some o' => exact takeFollowing_covered h hc

theorem takePos_grows (p : Pos) (args : List Text) (s : State) : Grows s (takePos p args s) ∧ ∀ v ∈ args, v ≠ "--".toList → ∃ e ∈ (takePos p args s).values, v ∈ e.2 := by
  have hmem : ∀ v ∈ args, v ≠ "--".toList → v ∈ args.erase "--".toList := fun v hv hne => (List.mem_erase_of_ne hne).mpr hv
  unfold takePos
  dsimp only
  split
  · next h =>
    refine ⟨⟨fun _ h => h, fun _ h => h⟩, fun v hv hne => ?_⟩
    have := hmem v hv hne
    rw [h.1] at this
    cases this
  · exact ⟨⟨fun _ h => h, fun e he => List.mem_cons_of_mem _ he⟩, fun v hv hne => ⟨_, List.mem_cons_self, hmem v hv hne⟩⟩

theorem takeAll_covered {v : Text} (hv : v ≠ "--".toList) : ∀ (l : List (Pos × Nat)) (items : List Item) (s : State), Covered v items s → Covered v (takeAll l items s).1 (takeAll l items s).2
  | [], _, _, h => h
  | (p, n) :: l, items, s, h => by
    rw [takeAll]
    obtain ⟨h1, h2⟩ := takePos_grows p ((items.take n).map Item.text) s
    refine takeAll_covered hv l _ _ ?_
    rcases h.grow h1 with h | h
    · rw [← List.take_append_drop n items, List.mem_append] at h
      rcases h with h | h
      · exact Or.inr (Or.inr (h2 v (List.mem_map.mpr ⟨_, h, rfl⟩) hv))
      · exact Or.inl h
    · exact Or.inr h

theorem consumePositionals_covered {v : Text} (hv : v ≠ "--".toList) (ps : List Pos) (items : List Item) (s : State) (h : Covered v items s) : Covered v (consumePositionals ps items s).2.1 (consumePositionals ps items s).2.2 :=
  takeAll_covered hv _ _ _ h

theorem takeAll_grows : ∀ (l : List (Pos × Nat)) (items : List Item) (s : State), Grows s (takeAll l items s).2
  | [], _, s => Grows.refl s
  | (p, n) :: l, items, s => by
    rw [takeAll]
    exact (takePos_grows p _ s).1.trans (takeAll_grows l _ _)

theorem loop_covered {P : Parser} {isInt : Text → Bool} {v : Text} (hv : v ≠ "--".toList) : ∀ (fuel : Nat) (ps : List Pos) (items : List Item) (s : State) (ps' : List Pos) (T : List Item) (s' : State), Covered v items s →
    loop P isInt fuel ps items s = .ok (ps', T, s') → Covered v T s'
  | 0, ps, items, s, ps', T, s', hc, h => by cases h; exact hc
  | fuel + 1, ps, items, s, ps', T, s', hc, h => by
    unfold loop at h
    by_cases hany : items.any Item.isOption = true
    · rw [if_pos hany] at h
      have hstep : ∀ (t : Tok) (x : Text) (rest : List Item) (ps1 : List Pos) (s1 : State), Covered v rest s1 → (match consumeOptional P isInt t x rest s1 with
          | .error e => Except.error e
          | .ok (rest, s) => loop P isInt fuel ps1 rest s) = .ok (ps', T, s') → Covered v T s' := by
        intro t x rest ps1 s1 hc h
        cases hx : consumeOptional P isInt t x rest s1 with
        | error e => rw [hx] at h; cases h
        | ok r =>
          obtain ⟨rest', s2⟩ := r
          rw [hx] at h
          exact loop_covered hv fuel ps1 rest' s2 ps' T s' (consumeOptional_covered hx hc) h
      split at h
      · next t x rest =>
        refine hstep t x rest ps s ?_ h
        rcases hc with h | h
        · rcases List.mem_cons.mp h with h | h
          · cases h
          · exact Or.inl h
        · exact Or.inr h
      · dsimp only at h
        split at h
        · exact loop_covered hv fuel _ _ _ ps' T s' (consumePositionals_covered hv ps items s hc) h
        · have hg : Grows s (consumePositionals ps items s).2.2 := takeAll_grows _ _ _
          have hsplit : ∀ {t x rest}, items.dropWhile (fun i => !i.isOption) = .option t x :: rest → Covered v rest { (consumePositionals ps items s).2.2 with extras := (consumePositionals ps items s).2.2.extras ++ (items.takeWhile (fun i => !i.isOption)).map Item.text } := by
            intro t x rest hd
            have hc' := hc.grow (hg.trans (c := { (consumePositionals ps items s).2.2 with extras := (consumePositionals ps items s).2.2.extras ++ (items.takeWhile (fun i => !i.isOption)).map Item.text }) ⟨fun v hv => List.mem_append_left _ hv, fun _ he => he⟩)
            rcases hc' with h | h
            · rw [← List.takeWhile_append_dropWhile (p := fun i => !i.isOption) (l := items), hd, List.mem_append, List.mem_cons] at h
              rcases h with h | h | h
              · exact Or.inr (Or.inl (List.mem_append_right _ (List.mem_map.mpr ⟨_, h, rfl⟩)))
              · cases h
              · exact Or.inl h
            · exact Or.inr h
          cases hd : items.dropWhile (fun i => !i.isOption) with
          | nil =>
            rw [List.dropWhile_eq_nil_iff] at hd
            rw [List.any_eq_true] at hany
            obtain ⟨i, hi, ho⟩ := hany
            have := hd i hi
            rw [ho] at this
            cases this
          | cons i rest =>
            have hi : i.isOption = true := by
              have h2 := List.head?_dropWhile_not (fun i => !i.isOption) items
              rw [hd] at h2
              simpa using h2
            rw [hd] at h
            cases i with
            | option t x => exact hstep t x rest _ _ (hsplit hd) h
            | dash => cases hi
            | arg v => cases hi
    · rw [if_neg hany] at h
      cases h
      exact hc

/-- of an accepted line every word that is not an option is stored -/
theorem parse_covered {P : Parser} {isInt : Text → Bool} {argv : List Text} {ns : List (Text × List Text)} (h : parse P isInt argv = .ok ns) {items : List Item} (hc : classify P argv = .ok items) {v : Text} (hv : v ≠ "--".toList) (hm : .arg v ∈ items) :
    ∃ e ∈ ns, v ∈ e.2 := by
  cases hl : loop P isInt (items.length + 1) P.pos items {} with
  | error e =>
    unfold parse at h
    rw [hc] at h
    dsimp only at h
    rw [hl] at h
    cases h
  | ok r =>
    obtain ⟨ps, T, s⟩ := r
    have h1 := loop_covered hv _ _ _ _ _ _ _ (Or.inl hm) hl
    have h2 := consumePositionals_covered hv ps T s h1
    rw [parse_of hc hl rfl] at h
    split at h
    · cases h
    · split at h
      · cases h
      · next hno =>
        cases h
        rw [not_not, List.append_eq_nil_iff, List.map_eq_nil_iff] at hno
        rcases h2 with h | h | h
        · rw [show (consumePositionals ps T s).2.1 = _ from hno.2] at h; cases h
        · rw [show (consumePositionals ps T s).2.2.extras = _ from hno.1] at h; cases h
        · exact h

/-! ### nothing else is stored -/

/-- all values are ends of words of the line -/
def Known (argv : List Text) (s : State) : Prop := ∀ e ∈ s.values, ∀ v ∈ e.2, ∃ w ∈ argv, v <:+ w

/-- the words to be read are words of the line -/
def From (argv : List Text) (items : List Item) : Prop := ∀ i ∈ items, (i.text ∈ argv) ∧ ∀ t x, i = .option t x → ∀ v, t.explicit = some v → v <:+ x

theorem From.sub {argv : List Text} {items items' : List Item} (h : From argv items) (hs : ∀ i ∈ items', i ∈ items) : From argv items' := fun i hi => h i (hs i hi)

theorem takeOpts_known {argv : List Text} {isInt : Text → Bool} : ∀ {l : List (Opt × List Text)} {s s' : State}, takeOpts isInt l s = .ok s' → Known argv s → (∀ q ∈ l, ∀ v ∈ q.2, ∃ w ∈ argv, v <:+ w) → Known argv s'
  | [], s, s', h, hk, _ => by cases h; exact hk
  | (o, args) :: l, s, s', h, hk, hq => by
    rw [takeOpts] at h
    cases hx : takeOpt isInt o args s with
    | error e => rw [hx] at h; cases h
    | ok s1 =>
      rw [hx] at h
      refine takeOpts_known h ?_ (fun q hq' => hq q (List.mem_cons_of_mem _ hq'))
      unfold takeOpt at hx
      split at hx
      · cases hx
      · split at hx
        · cases hx
        · cases hx
          intro e he
          rcases List.mem_cons.mp he with rfl | he
          · exact hq (o, args) (by simp)
          · exact hk e he

theorem chain_suffix {P : Parser} : ∀ (x : Text) (o : Opt) (string : Text) (sep : Bool) (acc : List (Opt × List Text)) (r : List (Opt × List Text) × Option Text × Option Opt), chain P o string sep acc x = .ok r →
    ∀ q ∈ r.1, q ∈ acc ∨ ∀ v ∈ q.2, v <:+ x
  | [], o, string, sep, acc, r, h => by
    rw [chain] at h
    split at h
    · cases h
    · cases h
      intro q hq
      rcases List.mem_append.mp hq with hq | hq
      · exact Or.inl hq
      · rw [List.mem_singleton.mp hq]
        exact Or.inr fun v hv => by rw [List.mem_singleton.mp hv]; exact List.suffix_refl _
  | c :: e, o, string, sep, acc, r, h => by
    have hend : ∀ q ∈ acc ++ [(o, ([] : List Text))], q ∈ acc ∨ ∀ v ∈ q.2, v <:+ c :: e := by
      intro q hq
      rcases List.mem_append.mp hq with hq | hq
      · exact Or.inl hq
      · rw [List.mem_singleton.mp hq]
        exact Or.inr (by simp)
    rw [chain.eq_def] at h
    dsimp only at h
    split at h
    · split at h
      · cases h
      · split at h
        · cases h
        · split at h
          · cases h
            exact hend
          · next o' _ =>
            cases e with
            | nil => cases h; exact hend
            | cons d e' =>
              dsimp only at h
              have hrec : ∀ (x : Text) (sep' : Bool), x <:+ c :: d :: e' → (∀ q ∈ r.1, q ∈ acc ++ [(o, ([] : List Text))] ∨ ∀ v ∈ q.2, v <:+ x) → ∀ q ∈ r.1, q ∈ acc ∨ ∀ v ∈ q.2, v <:+ c :: d :: e' := by
                intro x _ hx hr q hq
                rcases hr q hq with hq | hq
                · exact hend q hq
                · exact Or.inr fun v hv => (hq v hv).trans hx
              split at h
              · exact hrec e' true ⟨[c, d], rfl⟩ (chain_suffix e' o' ['-', c] true (acc ++ [(o, [])]) r h)
              · exact hrec (d :: e') false ⟨[c], rfl⟩ (chain_suffix (d :: e') o' ['-', c] false (acc ++ [(o, [])]) r h)
    · cases h
      intro q hq
      rcases List.mem_append.mp hq with hq | hq
      · exact Or.inl hq
      · rw [List.mem_singleton.mp hq]
        exact Or.inr fun v hv => by rw [List.mem_singleton.mp hv]; exact List.suffix_refl _

theorem takeFollowing_known {argv : List Text} {isInt : Text → Bool} {o : Opt} {acc : List (Opt × List Text)} {items items' : List Item} {s s' : State} (h : takeFollowing isInt o acc items s = .ok (items', s')) (hk : Known argv s) (hi : From argv items)
    (hacc : ∀ q ∈ acc, ∀ v ∈ q.2, ∃ w ∈ argv, v <:+ w) : Known argv s' ∧ From argv items' := by
  unfold takeFollowing at h
  cases hm : matchArgument o items with
  | error e => rw [hm] at h; cases h
  | ok n =>
    rw [hm] at h
    dsimp only at h
    cases ht : takeOpts isInt (acc ++ [(o, (items.take n).map Item.text)]) s with
    | error e => rw [ht] at h; cases h
    | ok s1 =>
      rw [ht] at h
      cases h
      refine ⟨takeOpts_known ht hk ?_, hi.sub fun i hi => List.mem_of_mem_drop hi⟩
      intro q hq v hv
      rcases List.mem_append.mp hq with hq | hq
      · exact hacc q hq v hv
      · rw [List.mem_singleton.mp hq] at hv
        obtain ⟨i, hi', rfl⟩ := List.mem_map.mp hv
        exact ⟨_, (hi i (List.mem_of_mem_take hi')).1, List.suffix_refl _⟩

theorem consumeOptional_known {argv : List Text} {P : Parser} {isInt : Text → Bool} {t : Tok} {text : Text} {items items' : List Item} {s s' : State} (h : consumeOptional P isInt t text items s = .ok (items', s')) (hk : Known argv s)
    (hi : From argv (.option t text :: items)) : Known argv s' ∧ From argv items' := by
  have hi' : From argv items := hi.sub fun i h => List.mem_cons_of_mem _ h
  unfold consumeOptional at h
  cases ha : t.action with
  | none =>
    rw [ha] at h
    cases h
    exact ⟨hk, hi'⟩
  | some o =>
    rw [ha] at h
    dsimp only at h
    cases he : t.explicit with
    | none => rw [he] at h; exact takeFollowing_known h hk hi' (by simp)
    | some e =>
      rw [he] at h
      dsimp only at h
      cases hx : chain P o t.string t.sep [] e with
      | error e => rw [hx] at h; cases h
      | ok r =>
        obtain ⟨acc, extra, next⟩ := r
        have hacc : ∀ q ∈ acc, ∀ v ∈ q.2, ∃ w ∈ argv, v <:+ w := by
          intro q hq v hv
          rcases chain_suffix e o t.string t.sep [] _ hx q hq with h | h
          · cases h
          · obtain ⟨h1, h2⟩ := hi (.option t text) (by simp)
            exact ⟨text, h1, (h v hv).trans (h2 t text rfl e he)⟩
        rw [hx] at h
        cases next with
        | none =>
          dsimp only at h
          cases ht : takeOpts isInt acc { s with extras := s.extras ++ extra.toList } with
          | error e => rw [ht] at h; cases h
          | ok s1 =>
            rw [ht] at h
            cases h
            exact ⟨takeOpts_known ht hk hacc, hi'⟩
        | some o' => exact takeFollowing_known h hk hi' hacc

theorem takeAll_known {argv : List Text} : ∀ (l : List (Pos × Nat)) (items : List Item) (s : State), Known argv s → From argv items → Known argv (takeAll l items s).2 ∧ From argv (takeAll l items s).1
  | [], _, _, hk, hi => ⟨hk, hi⟩
  | (p, n) :: l, items, s, hk, hi => by
    rw [takeAll]
    refine takeAll_known l _ _ ?_ (hi.sub fun i h => List.mem_of_mem_drop h)
    unfold takePos
    dsimp only
    split
    · exact hk
    · intro e he v hv
      rcases List.mem_cons.mp he with rfl | he
      · obtain ⟨i, hi', rfl⟩ := List.mem_map.mp (List.mem_of_mem_erase hv)
        exact ⟨_, (hi i (List.mem_of_mem_take hi')).1, List.suffix_refl _⟩
      · exact hk e he v hv

theorem loop_known {argv : List Text} {P : Parser} {isInt : Text → Bool} : ∀ (fuel : Nat) (ps : List Pos) (items : List Item) (s : State) (ps' : List Pos) (T : List Item) (s' : State), Known argv s → From argv items →
    loop P isInt fuel ps items s = .ok (ps', T, s') → Known argv s' ∧ From argv T
  | 0, ps, items, s, ps', T, s', hk, hi, h => by cases h; exact ⟨hk, hi⟩
  | fuel + 1, ps, items, s, ps', T, s', hk, hi, h => by
    unfold loop at h
    by_cases hany : items.any Item.isOption = true
    · rw [if_pos hany] at h
      have hstep : ∀ (t : Tok) (x : Text) (rest : List Item) (ps1 : List Pos) (s1 : State), Known argv s1 → From argv (.option t x :: rest) → (match consumeOptional P isInt t x rest s1 with
          | .error e => Except.error e
          | .ok (rest, s) => loop P isInt fuel ps1 rest s) = .ok (ps', T, s') → Known argv s' ∧ From argv T := by
        intro t x rest ps1 s1 hk hi h
        cases hx : consumeOptional P isInt t x rest s1 with
        | error e => rw [hx] at h; cases h
        | ok r =>
          obtain ⟨rest', s2⟩ := r
          rw [hx] at h
          obtain ⟨h1, h2⟩ := consumeOptional_known hx hk hi
          exact loop_known fuel ps1 rest' s2 ps' T s' h1 h2 h
      split at h
      · next t x rest => exact hstep t x rest ps s hk hi h
      · dsimp only at h
        obtain ⟨h1, h2⟩ := takeAll_known (argv := argv) (ps.zip (matchPartial ps items)) items s hk hi
        split at h
        · exact loop_known fuel _ _ _ ps' T s' h1 h2 h
        · split at h
          · next t x rest hd =>
            refine hstep t x rest _ _ (by exact h1) (hi.sub fun i h => ?_) h
            rw [← hd] at h
            exact (List.dropWhile_sublist _).subset h
          · cases h
            exact ⟨h1, hi.sub fun i h => (List.dropWhile_sublist _).subset h⟩
    · rw [if_neg hany] at h
      cases h
      exact ⟨hk, hi⟩

theorem partition_suffix {s v : Text} (h : (partition s).2 = some v) : v <:+ s := by
  unfold partition at h
  split at h
  · cases h
  · next c e hd =>
    cases h
    exact (List.suffix_cons c _).trans (hd ▸ List.dropWhile_suffix _)

theorem optionTuples_suffix {P : Parser} {s : Text} {t : Tok} (h : t ∈ optionTuples P s) {v : Text} (hv : t.explicit = some v) : v <:+ s := by
  unfold optionTuples at h
  split at h
  · obtain ⟨p, -, rfl⟩ := List.mem_map.mp h
    exact partition_suffix hv
  · obtain ⟨p, -, hp⟩ := List.mem_filterMap.mp h
    split at hp
    · cases hp; cases hv; exact List.drop_suffix _ _
    · split at hp
      · cases hp; cases hv
      · cases hp

theorem parseOptional_suffix {P : Parser} {s : Text} {t : Tok} (h : parseOptional P s = .ok (some t)) {v : Text} (hv : t.explicit = some v) : v <:+ s := by
  unfold parseOptional at h
  split at h
  · cases h
  · split at h
    · cases h
    · split at h
      · cases h; cases hv
      · split at h
        · cases h
        · split at h
          · next e o h1 h2 => cases h; cases hv; exact partition_suffix h1
          · split at h
            · next tok ht => cases h; exact optionTuples_suffix (by rw [ht]; simp) hv
            · cases h
            · split at h
              · cases h
              · split at h
                · cases h
                · cases h; cases hv

theorem classify_from {P : Parser} : ∀ {l : List Text} {items : List Item}, classify P l = .ok items → From l items
  | [], items, h => by cases h; intro i hi; cases hi
  | s :: l, items, h => by
    rw [classify] at h
    split at h
    · next hs =>
      cases h
      intro i hi
      rcases List.mem_cons.mp hi with rfl | hi
      · exact ⟨by rw [hs]; exact List.mem_cons_self, fun t x e => by cases e⟩
      · obtain ⟨v, hv, rfl⟩ := List.mem_map.mp hi
        exact ⟨List.mem_cons_of_mem _ hv, fun t x e => by cases e⟩
    · split at h
      · cases h
      · next tok ht =>
        split at h
        · cases h
        · next items' hi' =>
          cases h
          intro i hi
          rcases List.mem_cons.mp hi with rfl | hi
          · cases tok with
            | none => exact ⟨List.mem_cons_self, fun t x e => by cases e⟩
            | some t => exact ⟨List.mem_cons_self, fun t' x e v hv => by cases e; exact parseOptional_suffix ht hv⟩
          · obtain ⟨h1, h2⟩ := classify_from hi' i hi
            exact ⟨List.mem_cons_of_mem _ h1, h2⟩

/-- all values of an accepted line are ends of its words -/
theorem parse_known {P : Parser} {isInt : Text → Bool} {argv : List Text} {ns : List (Text × List Text)} (h : parse P isInt argv = .ok ns) : ∀ e ∈ ns, ∀ v ∈ e.2, ∃ w ∈ argv, v <:+ w := by
  cases hc : classify P argv with
  | error e => unfold parse at h; rw [hc] at h; cases h
  | ok items =>
    cases hl : loop P isInt (items.length + 1) P.pos items {} with
    | error e =>
      unfold parse at h
      rw [hc] at h
      dsimp only at h
      rw [hl] at h
      cases h
    | ok r =>
      obtain ⟨ps, T, s⟩ := r
      obtain ⟨h1, h2⟩ := loop_known (argv := argv) _ _ _ _ _ _ _ (by intro e he; cases he) (classify_from hc) hl
      have h3 := (takeAll_known (argv := argv) (ps.zip (matchPartial ps T)) T s h1 h2).1
      rw [parse_of hc hl rfl] at h
      split at h
      · cases h
      · split at h
        · cases h
        · cases h
          exact h3

end ABX.Argparse
