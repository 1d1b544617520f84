import Verif.Spec.Names
import Verif.Proofs.Items
/-! Lemmas for the names of levels and the text of the results. -/
namespace ABX.Names
open Database (Text)
open ExtSort Task SideOps Spec

/-! ### integers -/

theorem minus_not_digit : ('-').isDigit = false := rfl

theorem decimal_inj {m n : Int} (h : decimal m = decimal n) : m = n := by
  have key : ∀ k : Nat, ∀ l, '-' :: l ≠ Items.str k := by
    intro k l h
    have := Items.str_digit (n := k) (c := '-') (by rw [← h]; exact List.mem_cons_self)
    simp [minus_not_digit] at this
  unfold decimal at h
  by_cases h1 : m < 0 <;> by_cases h2 : n < 0
  · rw [if_pos h1, if_pos h2] at h
    have := Items.str_inj (List.cons.inj h).2
    omega
  · rw [if_pos h1, if_neg h2] at h; exact absurd h (key _ _)
  · rw [if_neg h1, if_pos h2] at h; exact absurd h.symm (key _ _)
  · rw [if_neg h1, if_neg h2] at h
    have := Items.str_inj h
    omega

theorem decimal_mem {n : Int} {c : Char} (h : c ∈ decimal n) : c = '-' ∨ c.isDigit = true := by
  unfold decimal at h
  split at h
  · rcases List.mem_cons.mp h with h | h
    · exact Or.inl h
    · exact Or.inr (Items.str_digit h)
  · exact Or.inr (Items.str_digit h)

theorem decimal_ne (n : Int) : decimal n ≠ [] := by
  unfold decimal
  split
  · simp
  · exact Items.str_ne _

theorem decimal_not {n : Int} (c : Char) (h1 : c ≠ '-') (h2 : c.isDigit = false) : c ∉ decimal n := by
  intro h
  rcases decimal_mem h with h | h
  · exact h1 h
  · rw [h2] at h; cases h

/-! ### strings -/

theorem escape_cases (q c : Char) (hq : q ≠ '\\') : (escape q c = [c] ∧ c ≠ '\\' ∧ c ≠ q) ∨ ∃ d, escape q c = ['\\', d] := by
  unfold escape
  split
  · exact Or.inr ⟨_, rfl⟩
  · split
    · exact Or.inr ⟨_, rfl⟩
    · split
      · exact Or.inr ⟨_, rfl⟩
      · split
        · exact Or.inr ⟨_, rfl⟩
        · split
          · exact Or.inr ⟨_, rfl⟩
          · exact Or.inl ⟨rfl, by assumption, by assumption⟩

theorem escape_inj (q c d : Char) (hq : q = '\'' ∨ q = '"') (h : escape q c = escape q d) : c = d := by
  unfold escape at h
  have e1 : q ≠ '\\' := by rcases hq with rfl | rfl <;> decide
  have e2 : q ≠ 't' := by rcases hq with rfl | rfl <;> decide
  have e3 : q ≠ 'n' := by rcases hq with rfl | rfl <;> decide
  have e4 : q ≠ 'r' := by rcases hq with rfl | rfl <;> decide
  have f1 := Ne.symm e1
  have f2 := Ne.symm e2
  have f3 := Ne.symm e3
  have f4 := Ne.symm e4
  repeat' split at h
  all_goals simp_all

/-- the escaped text ends at the first quote -/
theorem escaped_inj (q : Char) (hq : q = '\'' ∨ q = '"') : ∀ (s t : Text) (r u : Text), s.flatMap (escape q) ++ q :: r = t.flatMap (escape q) ++ q :: u → s = t ∧ r = u := by
  have hb : q ≠ '\\' := by rcases hq with rfl | rfl <;> decide
  have hne : ∀ (c : Char) (x y : Text), q :: x ≠ escape q c ++ y := by
    intro c x y h
    rcases escape_cases q c hb with ⟨he, -, h2⟩ | ⟨d, he⟩
    · rw [he] at h; exact h2 (List.cons.inj h).1.symm
    · rw [he] at h; exact hb (List.cons.inj h).1
  intro s
  induction s with
  | nil =>
    intro t r u h
    cases t with
    | nil => simp at h; exact ⟨rfl, h⟩
    | cons d t =>
      rw [List.flatMap_cons, List.append_assoc] at h
      exact absurd h (hne d _ _)
  | cons c s ih =>
    intro t r u h
    cases t with
    | nil =>
      rw [List.flatMap_cons, List.append_assoc] at h
      exact absurd h.symm (hne c _ _)
    | cons d t =>
      rw [List.flatMap_cons, List.flatMap_cons, List.append_assoc, List.append_assoc] at h
      have hcd : escape q c = escape q d ∧ s.flatMap (escape q) ++ q :: r = t.flatMap (escape q) ++ q :: u := by
        rcases escape_cases q c hb with ⟨he, h1, -⟩ | ⟨c', he⟩ <;> rcases escape_cases q d hb with ⟨hf, h2, -⟩ | ⟨d', hf⟩
        · rw [he, hf] at h ⊢
          obtain ⟨a, b⟩ := List.cons.inj h
          exact ⟨by rw [a], b⟩
        · rw [he, hf] at h
          exact absurd (List.cons.inj h).1 h1
        · rw [he, hf] at h
          exact absurd (List.cons.inj h).1.symm h2
        · rw [he, hf] at h ⊢
          obtain ⟨-, b⟩ := List.cons.inj h
          obtain ⟨a, b⟩ := List.cons.inj b
          exact ⟨by rw [a], b⟩
      obtain ⟨h1, h2⟩ := ih t r u hcd.2
      exact ⟨by rw [escape_inj q c d hq hcd.1, h1], h2⟩

theorem quote_cases (s : Text) : quote s = '\'' ∨ quote s = '"' := by
  unfold quote
  split
  · exact Or.inr rfl
  · exact Or.inl rfl

/-- a text that starts with a comma or a closing parenthesis -/
def Stops (r : Text) : Prop := ∃ c t, r = c :: t ∧ (c = ',' ∨ c = ')')

theorem until_stop (p : Char → Bool) (hp : p ',' = false ∧ p ')' = false) : ∀ (a b r u : Text), (∀ c ∈ a, p c = true) → (∀ c ∈ b, p c = true) → Stops r → Stops u → a ++ r = b ++ u → a = b ∧ r = u := by
  intro a
  induction a with
  | nil =>
    intro b r u _ hb hr hu h
    cases b with
    | nil => exact ⟨rfl, h⟩
    | cons c b =>
      obtain ⟨x, t, rfl, hx⟩ := hr
      have h1 : x = c := (List.cons.inj h).1
      have := hb c List.mem_cons_self
      rw [← h1] at this
      rcases hx with rfl | rfl <;> simp [hp] at this
  | cons d a ih =>
    intro b r u ha hb hr hu h
    cases b with
    | nil =>
      obtain ⟨x, t, rfl, hx⟩ := hu
      have h1 : d = x := (List.cons.inj h).1
      have := ha d List.mem_cons_self
      rw [h1] at this
      rcases hx with rfl | rfl <;> simp [hp] at this
    | cons c b =>
      obtain ⟨h1, h2⟩ := List.cons.inj h
      obtain ⟨h3, h4⟩ := ih b r u (fun x hx => ha x (List.mem_cons_of_mem _ hx)) (fun x hx => hb x (List.mem_cons_of_mem _ hx)) hr hu h2
      exact ⟨by rw [h1, h3], h4⟩

/-- the text of a value ends by itself -/
theorem repr_inj (v w : Val) (r u : Text) (hr : Stops r) (hu : Stops u) (h : repr v ++ r = repr w ++ u) : v = w ∧ r = u := by
  have hd : ∀ (n : Int) (q : Char), (q = '\'' ∨ q = '"') → ∀ x y, decimal n ++ x ≠ q :: y := by
    intro n q hq x y h
    cases hn : decimal n with
    | nil => exact decimal_ne n hn
    | cons c l =>
      rw [hn] at h
      have h1 : c = q := (List.cons.inj h).1
      have := decimal_mem (n := n) (c := c) (by rw [hn]; exact List.mem_cons_self)
      rw [h1] at this
      rcases hq with rfl | rfl <;> revert this <;> decide
  cases v with
  | int m =>
    cases w with
    | int n =>
      simp only [repr] at h
      let p : Char → Bool := fun c => c == '-' || c.isDigit
      have hp : ∀ n : Int, ∀ c ∈ decimal n, p c = true := fun n c hc => by
        rcases decimal_mem hc with rfl | hc
        · rfl
        · simp [p, hc]
      obtain ⟨h1, h2⟩ := until_stop p ⟨rfl, rfl⟩ _ _ r u (hp m) (hp n) hr hu h
      exact ⟨by rw [decimal_inj h1], h2⟩
    | str t =>
      simp only [repr] at h
      exact absurd h (hd m _ (quote_cases _) _ _)
  | str s =>
    cases w with
    | int n =>
      simp only [repr] at h
      exact absurd h.symm (hd n _ (quote_cases _) _ _)
    | str t =>
      simp only [repr, List.cons_append, List.append_assoc, List.nil_append] at h
      obtain ⟨h1, h2⟩ := List.cons.inj h
      rw [← h1] at h2
      obtain ⟨h3, h4⟩ := escaped_inj _ (quote_cases s.toList) _ _ _ _ h2
      exact ⟨by rw [String.ext h3], h4⟩

theorem tupleRest_stops (vs : List Val) : Stops (tupleRest vs) := by
  cases vs with
  | nil => exact ⟨')', [], rfl, Or.inr rfl⟩
  | cons v vs => exact ⟨',', _, rfl, Or.inl rfl⟩

theorem tupleRest_inj : ∀ vs ws : List Val, tupleRest vs = tupleRest ws → vs = ws
  | [], [], _ => rfl
  | [], w :: ws, h => by simp [tupleRest] at h
  | v :: vs, [], h => by simp [tupleRest] at h
  | v :: vs, w :: ws, h => by
    simp only [tupleRest, List.cons.injEq, true_and] at h
    obtain ⟨h1, h2⟩ := repr_inj v w _ _ (tupleRest_stops vs) (tupleRest_stops ws) h
    rw [h1, tupleRest_inj vs ws h2]

/-! ### paths -/

theorem pieces_noslash : ∀ (t cur : Text), '/' ∉ t → pieces cur t = [cur ++ t]
  | [], cur, _ => by simp [pieces]
  | c :: t, cur, h => by
    rw [List.mem_cons, not_or] at h
    simp only [pieces]
    rw [if_neg (Ne.symm h.1), pieces_noslash t _ h.2]
    simp

theorem pieces_append : ∀ (t cur rest : Text), '/' ∉ t → pieces cur (t ++ '/' :: rest) = (cur ++ t) :: pieces [] rest
  | [], cur, rest, _ => by simp [pieces]
  | c :: t, cur, rest, h => by
    rw [List.mem_cons, not_or] at h
    simp only [List.cons_append, pieces]
    rw [if_neg (Ne.symm h.1), pieces_append t _ rest h.2]
    simp

theorem place_noslash (key : List Val) (h : '/' ∉ keyName key) (h1 : keyName key ≠ []) (h2 : keyName key ≠ ['.']) : place key = ["regressors".toList, keyName key] := by
  unfold place groups
  have e : "/regressors/".toList ++ keyName key ++ ['/'] = [] ++ '/' :: ("regressors".toList ++ '/' :: (keyName key ++ '/' :: [])) := by
    rw [List.append_assoc]; rfl
  rw [e, pieces_append [] [] _ (by simp), pieces_append _ [] _ (by decide), pieces_append _ [] _ h]
  simp [pieces, h1, h2]

theorem escape_noslash (q c : Char) (hq : q = '\'' ∨ q = '"') (hc : c ≠ '/') : '/' ∉ escape q c := by
  have : '/' ≠ q := by rcases hq with rfl | rfl <;> decide
  unfold escape
  split
  · simp
  · split
    · simp [this]
    · split
      · simp
      · split
        · simp
        · split
          · simp
          · simp [Ne.symm hc]

theorem repr_noslash (v : Val) (h : NoSlash v) : '/' ∉ repr v := by
  cases v with
  | int n => exact decimal_not '/' (by decide) (by decide)
  | str s =>
    have hq := quote_cases s.toList
    have hq' : '/' ≠ quote s.toList := by rcases hq with h | h <;> rw [h] <;> decide
    simp only [repr, List.mem_cons, List.mem_append, List.mem_flatMap, List.not_mem_nil, or_false, not_or, not_exists, not_and]
    refine ⟨hq', fun c hc => escape_noslash _ c hq (fun e => h (e ▸ hc)), hq'⟩

theorem tupleRest_noslash : ∀ vs : List Val, (∀ v ∈ vs, NoSlash v) → '/' ∉ tupleRest vs
  | [], _ => by simp [tupleRest]
  | v :: vs, h => by
    simp only [tupleRest, List.mem_cons, List.mem_append, not_or]
    exact ⟨by decide, by decide, repr_noslash v (h v List.mem_cons_self), tupleRest_noslash vs (fun w hw => h w (List.mem_cons_of_mem _ hw))⟩

theorem keyName_noslash (key : List Val) (h : ∀ v ∈ key, NoSlash v) : '/' ∉ keyName key := by
  match key, h with
  | [], _ => simp [keyName]
  | [.int n], _ => exact decimal_not '/' (by decide) (by decide)
  | [.str s], h => exact h _ List.mem_cons_self
  | v :: w :: vs, h =>
    simp only [keyName, List.mem_cons, List.mem_append, not_or]
    exact ⟨by decide, repr_noslash v (h v List.mem_cons_self), tupleRest_noslash (w :: vs) (fun w hw => h w (List.mem_cons_of_mem _ hw))⟩

theorem keyName_name (key : List Val) (h : ∀ v ∈ key, Nameable v) : keyName key ≠ [] ∧ keyName key ≠ ['.'] := by
  match key, h with
  | [], _ => simp [keyName]
  | [.int n], _ =>
    refine ⟨decimal_ne n, fun e => ?_⟩
    have := decimal_mem (n := n) (c := '.') (by have e' : decimal n = ['.'] := e; rw [e']; exact List.mem_cons_self)
    revert this; decide
  | [.str s], h =>
    obtain ⟨h1, h2⟩ := h _ List.mem_cons_self
    exact ⟨fun e => h1 (String.ext e), fun e => h2 (String.ext e)⟩
  | v :: w :: vs, _ => simp [keyName]

/-! ### tables -/

theorem lineOf_join : ∀ (cells : List Text), cells ≠ [] → LineOf cells (join cells)
  | [a], _ => .one
  | a :: b :: rest, _ => by
    have := lineOf_join (b :: rest) (by simp)
    have h := LineOf.cons (a := a) this
    simpa [join] using h

theorem lineOf_header : ∀ (names : List Text), LineOf (names ++ ["by".toList, "score".toList, "n".toList]) (names.flatMap (· ++ ['\t']) ++ "by\tscore\tn".toList)
  | [] => .cons (.cons .one)
  | a :: names => by
    have h := LineOf.cons (a := a) (lineOf_header names)
    simpa [List.flatMap_cons, List.append_assoc] using h

theorem lines_flatMap {α : Type} (f : α → List Text) (g : α → Text) : ∀ (l : List α), (∀ a ∈ l, LineOf (f a) (g a)) → Lines (l.map f) (l.flatMap (fun a => g a ++ ['\n']))
  | [], _ => .nil
  | a :: l, h => by
    rw [List.map_cons, List.flatMap_cons]
    exact .cons (h a List.mem_cons_self) (lines_flatMap f g l (fun b hb => h b (List.mem_cons_of_mem _ hb)))

/-- a text is cut in one way before the first occurrence of a character -/
theorem cut_unique (c : Char) : ∀ (a b r u : Text), c ∉ a → c ∉ b → a ++ c :: r = b ++ c :: u → a = b ∧ r = u
  | [], [], r, u, _, _, h => ⟨rfl, by simpa using h⟩
  | [], d :: b, r, u, _, hb, h => by
    have := (List.cons.inj h).1
    rw [List.mem_cons, not_or] at hb
    exact absurd this hb.1
  | d :: a, [], r, u, ha, _, h => by
    have := (List.cons.inj h).1
    rw [List.mem_cons, not_or] at ha
    exact absurd this.symm ha.1
  | d :: a, e :: b, r, u, ha, hb, h => by
    obtain ⟨h1, h2⟩ := List.cons.inj h
    rw [List.mem_cons, not_or] at ha hb
    obtain ⟨h3, h4⟩ := cut_unique c a b r u ha.2 hb.2 h2
    exact ⟨by rw [h1, h3], h4⟩

theorem lineOf_no_newline : ∀ {row t}, LineOf row t → (∀ c ∈ row, Clean c) → '\n' ∉ t
  | _, _, .one, h => (h _ List.mem_cons_self).2
  | _, _, .cons hl, h => by
    have h1 := h _ List.mem_cons_self
    have h2 := lineOf_no_newline hl (fun c hc => h c (List.mem_cons_of_mem _ hc))
    simp only [List.mem_append, List.mem_singleton, not_or]
    exact ⟨⟨h1.2, by decide⟩, h2⟩

theorem lineOf_unique : ∀ {row row' : List Text} {t : Text}, LineOf row t → LineOf row' t → (∀ c ∈ row, Clean c) → (∀ c ∈ row', Clean c) → row = row' := by
  intro row row' t h
  induction h generalizing row' with
  | one =>
    rename_i a
    intro h' hc hc'
    cases h' with
    | one => rfl
    | cons hl =>
      have := (hc _ List.mem_cons_self).1
      simp at this
  | cons hl ih =>
    rename_i a rest t
    intro h' hc hc'
    generalize ht : a ++ ['\t'] ++ t = T at h'
    cases h' with
    | one =>
      have := (hc' _ List.mem_cons_self).1
      rw [← ht] at this
      simp at this
    | cons hl' =>
      rename_i b rest' t'
      rw [List.append_assoc, List.append_assoc] at ht
      obtain ⟨h1, h2⟩ := cut_unique '\t' a b t t' (hc _ List.mem_cons_self).1 (hc' _ List.mem_cons_self).1 ht
      subst h2
      rw [h1, ih hl' (fun c hc1 => hc c (List.mem_cons_of_mem _ hc1)) (fun c hc1 => hc' c (List.mem_cons_of_mem _ hc1))]

theorem lines_unique : ∀ {rows rows' : List (List Text)} {t : Text}, Lines rows t → Lines rows' t → (∀ row ∈ rows, ∀ c ∈ row, Clean c) → (∀ row ∈ rows', ∀ c ∈ row, Clean c) → rows = rows' := by
  intro rows rows' t h
  induction h generalizing rows' with
  | nil =>
    intro h' _ _
    generalize ht : ([] : Text) = T at h'
    cases h' with
    | nil => rfl
    | cons hl hr => simp at ht
  | cons hl hr ih =>
    rename_i row rows t u
    intro h' hc hc'
    generalize ht : t ++ ['\n'] ++ u = T at h'
    cases h' with
    | nil => simp at ht
    | cons hl' hr' =>
      rename_i row' rows' t' u'
      rw [List.append_assoc, List.append_assoc] at ht
      have n1 := lineOf_no_newline hl (hc _ List.mem_cons_self)
      have n2 := lineOf_no_newline hl' (hc' _ List.mem_cons_self)
      obtain ⟨h1, h2⟩ := cut_unique '\n' t t' u u' n1 n2 ht
      subst h1; subst h2
      rw [lineOf_unique hl hl' (hc _ List.mem_cons_self) (hc' _ List.mem_cons_self),
        ih hr' (fun r hr => hc r (List.mem_cons_of_mem _ hr)) (fun r hr => hc' r (List.mem_cons_of_mem _ hr))]

/-! ### texts without tabs and ends of line -/

theorem decimal_clean (n : Int) : Clean (decimal n) := ⟨decimal_not '\t' (by decide) (by decide), decimal_not '\n' (by decide) (by decide)⟩

theorem escape_clean (q c : Char) (hq : q = '\'' ∨ q = '"') : Clean (escape q c) := by
  have h1 : '\t' ≠ q := by rcases hq with rfl | rfl <;> decide
  have h2 : '\n' ≠ q := by rcases hq with rfl | rfl <;> decide
  unfold escape Clean
  split
  · simp
  · split
    · simp [h1, h2]
    · split
      · simp
      · rename_i ht
        split
        · simp
        · rename_i hn
          split
          · simp
          · simp [Ne.symm ht, Ne.symm hn]

theorem repr_clean (v : Val) : Clean (repr v) := by
  cases v with
  | int n => exact decimal_clean n
  | str s =>
    have hq := quote_cases s.toList
    have h1 : '\t' ≠ quote s.toList := by rcases hq with h | h <;> rw [h] <;> decide
    have h2 : '\n' ≠ quote s.toList := by rcases hq with h | h <;> rw [h] <;> decide
    simp only [Clean, repr, List.mem_cons, List.mem_append, List.mem_flatMap, List.not_mem_nil, or_false, not_or, not_exists, not_and]
    exact ⟨⟨h1, fun c _ => (escape_clean _ c hq).1, h1⟩, ⟨h2, fun c _ => (escape_clean _ c hq).2, h2⟩⟩

theorem clean_append {a b : Text} (ha : Clean a) (hb : Clean b) : Clean (a ++ b) := by
  simp only [Clean, List.mem_append, not_or]
  exact ⟨⟨ha.1, hb.1⟩, ha.2, hb.2⟩

theorem tupleRest_clean : ∀ vs : List Val, Clean (tupleRest vs)
  | [] => by simp [tupleRest, Clean]
  | v :: vs => by
    have : tupleRest (v :: vs) = [',', ' '] ++ (repr v ++ tupleRest vs) := rfl
    rw [this]
    exact clean_append (by simp [Clean]) (clean_append (repr_clean v) (tupleRest_clean vs))

theorem str_clean (v : Val) (h : CleanVal v) : Clean (str v) := by
  cases v with
  | int n => exact decimal_clean n
  | str s => exact h

/-- the name of a level of several columns is clean whatever the values -/
theorem keyName_clean (key : List Val) (h : key.length = 1 → ∀ v ∈ key, CleanVal v) : Clean (keyName key) := by
  match key, h with
  | [], _ => simp [keyName, Clean]
  | [v], h => exact str_clean v (h rfl v List.mem_cons_self)
  | v :: w :: vs, _ =>
    have : keyName (v :: w :: vs) = ['('] ++ (repr v ++ tupleRest (w :: vs)) := rfl
    rw [this]
    exact clean_append (by simp [Clean]) (clean_append (repr_clean v) (tupleRest_clean _))

/-! ### the rows of analyze -/

theorem labelsOf_mem (indexes : List (List Val)) (key : List ℚ) (labels : List Val) (h : Analyze.labelsOf indexes key = .ok labels) : List.Forall₂ (· ∈ ·) labels indexes := by
  unfold Analyze.labelsOf at h
  have gen : ∀ (ix : List (List Val)) (n : Nat) (labels : List Val),
      sequence ((ix.zipIdx n).map (fun p => match key[p.2]? with
        | none => (.error .indexError : Except Err Val)
        | some q => match p.1[(Analyze.trunc q).toNat]? with
          | none => .error .indexError
          | some v => .ok v)) = .ok labels → List.Forall₂ (· ∈ ·) labels ix := by
    intro ix
    induction ix with
    | nil =>
      intro n labels h
      simp only [List.zipIdx_nil, List.map_nil, sequence] at h
      cases h; exact .nil
    | cons a ix ih =>
      intro n labels h
      simp only [List.zipIdx_cons, List.map_cons] at h
      cases hk : key[n]? with
      | none => simp only [hk, sequence] at h; cases h
      | some q =>
        simp only [hk] at h
        cases ha : a[(Analyze.trunc q).toNat]? with
        | none => simp only [ha, sequence] at h; cases h
        | some v =>
          simp only [ha, sequence] at h
          split at h
          · cases h
          · rename_i ls hls
            cases h
            exact .cons (List.mem_of_getElem? ha) (ih (n + 1) ls hls)
  exact gen indexes 0 labels h

theorem sequence_mem {α β : Type} (f : α → Except Err β) : ∀ (l : List α) (m : List β), sequence (l.map f) = .ok m → ∀ b ∈ m, ∃ a ∈ l, f a = .ok b
  | [], m, h, b, hb => by simp only [List.map_nil, sequence] at h; cases h; simp at hb
  | a :: l, m, h, b, hb => by
    rw [List.map_cons] at h
    cases ha : f a with
    | error e => simp only [ha, sequence] at h; cases h
    | ok c =>
      simp only [ha, sequence] at h
      split at h
      · cases h
      · rename_i n hn
        cases h
        rcases List.mem_cons.mp hb with rfl | hb
        · exact ⟨a, List.mem_cons_self, ha⟩
        · obtain ⟨a', h1, h2⟩ := sequence_mem f l n hn b hb
          exact ⟨a', List.mem_cons_of_mem _ h1, h2⟩

theorem collapseLevel_mem (argsort : List Int → List Nat) (dt : Nat) (indexes : List (List Val)) (by_ : List Val) (cols : List (List Nat)) (scores : List Int) (out : List Analyze.OutRow)
    (h : Analyze.collapseLevel argsort dt indexes by_ cols scores = .ok out) : ∀ r ∈ out, r.by_ = by_ ∧ List.Forall₂ (· ∈ ·) r.labels indexes := by
  unfold Analyze.collapseLevel at h
  split at h
  · cases h; intro r hr; simp at hr
  · simp only at h
    split at h
    · cases h
    · split at h
      · cases h
      · split at h
        · cases h
        · split at h
          · cases h
          · split at h
            · cases h
            · split at h
              · cases h
              · intro r hr
                obtain ⟨g, -, hg⟩ := sequence_mem _ _ _ h r hr
                split at hg
                · cases hg
                · rename_i labels hl
                  cases hg
                  exact ⟨rfl, labelsOf_mem _ _ _ hl⟩

theorem collapseLoop_mem (argsort : List Int → List Nat) (dt : Nat) (indexes : List (List Val)) (F : File) (scores : List Int) : ∀ (ps : List (List Val × Nat)) (outs : List (List Analyze.OutRow)),
    Analyze.collapseLoop argsort dt indexes F scores ps = .ok outs → ∀ out ∈ outs, ∀ r ∈ out, (∃ p ∈ ps, r.by_ = p.1) ∧ List.Forall₂ (· ∈ ·) r.labels indexes
  | [], outs, h => by simp only [Analyze.collapseLoop] at h; cases h; simp
  | p :: ps, outs, h => by
    simp only [Analyze.collapseLoop] at h
    split at h
    · cases h
    · split at h
      · cases h
      · split at h
        · cases h
        · rename_i out hout
          split at h
          · cases h
          · rename_i outs' houts
            cases h
            intro o ho r hr
            rcases List.mem_cons.mp ho with rfl | ho
            · obtain ⟨h1, h2⟩ := collapseLevel_mem _ _ _ _ _ _ _ hout r hr
              exact ⟨⟨p, List.mem_cons_self, h1⟩, h2⟩
            · obtain ⟨⟨q, hq, h1⟩, h2⟩ := collapseLoop_mem argsort dt indexes F scores ps outs' houts o ho r hr
              exact ⟨⟨q, List.mem_cons_of_mem _ hq, h1⟩, h2⟩

/-- each row has a level of the file and a label of each index -/
theorem collapse_mem (argsort : List Int → List Nat) (indexes : List (List Val)) (F : File) (scores : List Int) (rows : List Analyze.OutRow) (h : Analyze.collapse argsort indexes F scores = .ok rows) :
    ∀ r ∈ rows, r.by_ ∈ F.bys ∧ List.Forall₂ (· ∈ ·) r.labels indexes := by
  unfold Analyze.collapse at h
  split at h
  · cases h
  · split at h
    · cases h
    · rename_i outs houts
      cases h
      intro r hr
      obtain ⟨out, ho, hr⟩ := List.mem_flatten.mp hr
      obtain ⟨⟨p, hp, h1⟩, h2⟩ := collapseLoop_mem _ _ _ _ _ _ _ houts out ho r hr
      refine ⟨?_, h2⟩
      rw [h1]
      obtain ⟨a, n⟩ := p
      have := List.mem_zipIdx' hp
      exact this.2 ▸ List.getElem_mem _

end ABX.Names
