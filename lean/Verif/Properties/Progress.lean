import Verif.Spec.Progress
import Verif.Properties.Stats
import Verif.Properties.TaskObject
import Verif.Properties.Generate
import Verif.Properties.PairsWitness
/-!
C86: the progress display.  Whatever the calls, a display shows one line for each name, in the order in which the names were first added, with the message and total given last and the sum of the updates since
then; only an update of a name that was not added raises (`C86_display`).  During a generation of triplets the display shows the blocks and the triplets done so far, and ends with all the blocks and all the triplets
(`C86_generate`).  It does not do so in a second generation (`C86_violated`), and the escape sequence written is not the one that moves the cursor up (`C86_escape`).
-/
namespace ABX.Progress
open ExtSort SideOps ABX.Spec.Progress
open Database (Text)

/-! ### the object -/

/-- the object holds what the calls made of it -/
structure Holds (tty : Bool) (cs : List Call) (d : Display) : Prop where
  message : d.message = (names cs).map (fun n => (n, ((last cs n).getD ("", 0)).1))
  total : d.total = (names cs).map (fun n => (n, ((last cs n).getD ("", 0)).2))
  count : d.count = (names cs).map (fun n => (n, count cs n))
  init : d.init = !cs.any shows
  tty : d.tty = tty

theorem mem_names {cs : List Call} {n : String} : n ∈ names cs ↔ n ∈ cs.filterMap added := by
  simp only [names, List.mem_reverse, List.mem_dedup]

theorem last_isSome {cs : List Call} {n : String} (h : n ∈ names cs) : ∃ p, last cs n = some p := by
  rw [mem_names, List.mem_filterMap] at h
  obtain ⟨c, hc, hn⟩ := h
  cases c with
  | add n' m t =>
    simp only [added, Option.some.injEq] at hn
    subst hn
    have : (last cs n').isSome := by
      unfold last
      rw [List.findSome?_isSome_iff]
      exact ⟨_, List.mem_reverse.mpr hc, by simp [adds]⟩
    exact Option.isSome_iff_exists.mp this
  | update _ _ => cases hn
  | display => cases hn

theorem names_snoc (cs : List Call) (c : Call) : names (cs ++ [c]) = match added c with
    | some n => if n ∈ names cs then names cs else names cs ++ [n]
    | none => names cs := by
  cases hc : added c with
  | none => simp [names, hc]
  | some n =>
    dsimp only
    have e1 : names (cs ++ [c]) = (n :: (cs.filterMap added).reverse).dedup.reverse := by simp [names, hc]
    rw [e1]
    by_cases hn : n ∈ names cs
    · rw [if_pos hn, List.dedup_cons_of_mem (by rw [List.mem_reverse]; exact mem_names.mp hn)]
      rfl
    · rw [if_neg hn, List.dedup_cons_of_notMem (by rw [List.mem_reverse]; exact fun h => hn (mem_names.mpr h)), List.reverse_cons]
      rfl

theorem last_snoc (cs : List Call) (c : Call) (n : String) : last (cs ++ [c]) n = (adds n c).or (last cs n) := by
  simp only [last, List.reverse_append, List.reverse_cons, List.reverse_nil, List.nil_append, List.singleton_append, List.findSome?_cons]
  cases adds n c <;> rfl

theorem count_snoc (cs : List Call) (c : Call) (n : String) : Spec.Progress.count (cs ++ [c]) n = if added c = some n then 0 else amount n c + Spec.Progress.count cs n := by
  simp only [Spec.Progress.count, List.reverse_append, List.reverse_cons, List.reverse_nil, List.nil_append, List.singleton_append, List.takeWhile_cons]
  by_cases h : added c = some n
  · simp [h]
  · have : (added c != some n) = true := by simpa using h
    simp [h, this]

theorem setItem_map {α : Type} {ns : List String} (f : String → α) (k : String) (v : α) : setItem (ns.map (fun n => (n, f n))) k v =
    if k ∈ ns then ns.map (fun n => (n, if n = k then v else f n)) else ns.map (fun n => (n, f n)) ++ [(k, v)] := by
  unfold setItem
  have : (ns.map (fun n => (n, f n))).any (fun p => p.1 == k) = decide (k ∈ ns) := by
    induction ns with
    | nil => rfl
    | cons n ns ih =>
      simp only [List.map_cons, List.any_cons, ih, List.mem_cons, Bool.decide_or]
      congr 1
      rw [Bool.eq_iff_iff, beq_iff_eq, decide_eq_true_eq]
      exact eq_comm
  rw [this]
  by_cases h : k ∈ ns
  · simp only [h, decide_true, if_true, List.map_map]
    apply List.map_congr_left
    intro n hn
    simp only [Function.comp]
    split <;> simp_all
  · simp [h]

theorem lookup_map {α : Type} {ns : List String} (f : String → α) (k : String) : (ns.map (fun n => (n, f n))).lookup k = if k ∈ ns then some (f k) else none := by
  induction ns with
  | nil => rfl
  | cons n ns ih =>
    simp only [List.map_cons, List.lookup_cons, ih, List.mem_cons]
    by_cases h : k = n
    · subst h; simp
    · simp [h, beq_eq_false_iff_ne.mpr h]

theorem Holds.new (tty : Bool) : Holds tty [] (Display.new tty) := ⟨rfl, rfl, rfl, rfl, rfl⟩

theorem Holds.add {tty : Bool} {cs : List Call} {d : Display} (H : Holds tty cs d) (n m : String) (t : Int) : Holds tty (cs ++ [.add n m t]) (d.add n m t) := by
  refine ⟨?_, ?_, ?_, ?_, H.tty⟩
  · show setItem d.message n m = _
    rw [H.message, setItem_map, names_snoc]
    simp only [added, last_snoc, adds]
    split
    · apply List.map_congr_left
      intro x _
      by_cases hx : x = n
      · simp [hx]
      · simp [hx, Ne.symm hx]
    · rw [List.map_append]
      congr 1
      · apply List.map_congr_left
        intro x hx
        have : n ≠ x := fun he => by subst he; contradiction
        simp [this]
      · simp
  · show setItem d.total n t = _
    rw [H.total, setItem_map, names_snoc]
    simp only [added, last_snoc, adds]
    split
    · apply List.map_congr_left
      intro x _
      by_cases hx : x = n
      · simp [hx]
      · simp [hx, Ne.symm hx]
    · rw [List.map_append]
      congr 1
      · apply List.map_congr_left
        intro x hx
        have : n ≠ x := fun he => by subst he; contradiction
        simp [this]
      · simp
  · show setItem d.count n 0 = _
    rw [H.count, setItem_map, names_snoc]
    simp only [added, count_snoc, amount, Option.some.injEq]
    split
    · apply List.map_congr_left
      intro x _
      by_cases hx : x = n
      · simp [hx]
      · simp [hx, Ne.symm hx]
    · rw [List.map_append]
      congr 1
      · apply List.map_congr_left
        intro x hx
        have : n ≠ x := fun he => by subst he; contradiction
        simp [this]
      · simp
  · show d.init = _
    rw [H.init]
    simp [shows]

theorem Holds.update {tty : Bool} {cs : List Call} {d : Display} (H : Holds tty cs d) (n : String) (k : Int) :
    if n ∈ names cs then ∃ d', d.update n k = .ok d' ∧ Holds tty (cs ++ [.update n k]) d' else d.update n k = .error .keyError := by
  unfold Display.update
  rw [H.count, lookup_map]
  by_cases hn : n ∈ names cs
  · simp only [hn, if_true]
    refine ⟨_, rfl, ?_, ?_, ?_, ?_, H.tty⟩
    · show d.message = _
      rw [H.message, names_snoc]
      simp [added, last_snoc, adds]
    · show d.total = _
      rw [H.total, names_snoc]
      simp [added, last_snoc, adds]
    · dsimp only
      rw [setItem_map, names_snoc, if_pos hn]
      apply List.map_congr_left
      intro x _
      simp only [count_snoc, added, amount]
      by_cases hx : x = n
      · subst hx; simp [Int.add_comm]
      · simp [hx, Ne.symm hx]
    · show d.init = _
      rw [H.init]
      simp [shows]
  · simp [hn]

theorem Holds.display {tty : Bool} {cs : List Call} {d : Display} (H : Holds tty cs d) : d.display.1 = shown tty cs ∧ Holds tty (cs ++ [.display]) d.display.2 := by
  constructor
  · show (if d.init then [] else if d.tty then escape d.message.length else []) ++ _ = _
    unfold shown
    congr 1
    · rw [H.init, H.tty, H.message, List.length_map]
      cases cs.any shows <;> cases tty <;> rfl
    · rw [H.message, H.total, H.count]
      unfold lines
      have : ∀ ns : List String, (∀ n ∈ ns, n ∈ names cs) →
          (((ns.map (fun n => (n, ((last cs n).getD ("", 0)).1))).map (·.2)).zip (((ns.map (fun n => (n, ((last cs n).getD ("", 0)).2))).map (·.2)).zip
            ((ns.map (fun n => (n, Spec.Progress.count cs n))).map (·.2)))).flatMap (fun p => line p.1 p.2.2 p.2.1) =
          ns.flatMap (fun n => match last cs n with
            | some (m, t) => line m (Spec.Progress.count cs n) t
            | none => []) := by
        intro ns hns
        induction ns with
        | nil => rfl
        | cons n ns ih =>
          obtain ⟨p, hp⟩ := last_isSome (hns n List.mem_cons_self)
          simp only [List.map_cons, List.zip_cons_cons, List.flatMap_cons, hp, Option.getD_some]
          rw [ih (fun x hx => hns x (List.mem_cons_of_mem _ hx))]
      exact this _ (fun _ h => h)
  · refine ⟨?_, ?_, ?_, ?_, H.tty⟩
    · show d.message = _
      rw [H.message, names_snoc]
      simp [added, last_snoc, adds]
    · show d.total = _
      rw [H.total, names_snoc]
      simp [added, last_snoc, adds]
    · show d.count = _
      rw [H.count, names_snoc]
      apply List.map_congr_left
      intro x _
      simp [count_snoc, added, amount]
    · show false = _
      simp [shows]

/-- the displays after the calls `pre` -/
def textsFrom (tty : Bool) (pre cs : List Call) : List Text :=
  (List.range cs.length).filterMap (fun i => if (cs[i]?).any shows then some (shown tty (pre ++ cs.take i)) else none)

theorem textsFrom_cons (tty : Bool) (pre : List Call) (c : Call) (cs : List Call) :
    textsFrom tty pre (c :: cs) = (if shows c then [shown tty pre] else []) ++ textsFrom tty (pre ++ [c]) cs := by
  unfold textsFrom
  rw [List.length_cons, List.range_succ_eq_map, List.filterMap_cons]
  simp only [List.getElem?_cons_zero, List.take_zero, List.append_nil, List.filterMap_map]
  have : (fun i => if ((c :: cs)[i]?).any shows then some (shown tty (pre ++ (c :: cs).take i)) else none) ∘ Nat.succ = (fun i => if (cs[i]?).any shows then some (shown tty (pre ++ [c] ++ cs.take i)) else none) := by
    funext i
    simp only [Function.comp, Nat.succ_eq_add_one, List.getElem?_cons_succ, List.take_succ_cons, List.append_assoc, List.singleton_append]
  rw [this]
  cases c <;> simp [shows]

theorem run_from {tty : Bool} : ∀ (cs pre : List Call) (d : Display), Holds tty pre d →
    ((∀ i n k, cs[i]? = some (.update n k) → n ∈ names (pre ++ cs.take i)) → ∃ d', run d cs = .ok (textsFrom tty pre cs, d') ∧ Holds tty (pre ++ cs) d') ∧
    ((∃ i n k, cs[i]? = some (.update n k) ∧ n ∉ names (pre ++ cs.take i)) → run d cs = .error .keyError)
  | [], pre, d, H => ⟨fun _ => ⟨d, rfl, by simpa using H⟩, fun ⟨i, n, k, h, _⟩ => by simp at h⟩
  | c :: cs, pre, d, H => by
    have shift : ∀ i n k, cs[i]? = some (.update n k) → (n ∈ names (pre ++ [c] ++ cs.take i) ↔ n ∈ names (pre ++ (c :: cs).take (i + 1))) := by
      intro i n k _
      rw [List.take_succ_cons, List.append_assoc, List.singleton_append]
    have tail : ∀ d', Holds tty (pre ++ [c]) d' →
        ((∀ i n k, (c :: cs)[i]? = some (.update n k) → n ∈ names (pre ++ (c :: cs).take i)) → ∃ d'', run d' cs = .ok (textsFrom tty (pre ++ [c]) cs, d'') ∧ Holds tty (pre ++ c :: cs) d'') ∧
        ((∃ i n k, cs[i]? = some (.update n k) ∧ n ∉ names (pre ++ [c] ++ cs.take i)) → run d' cs = .error .keyError) := by
      intro d' H'
      obtain ⟨i1, i2⟩ := run_from cs (pre ++ [c]) d' H'
      refine ⟨fun hk => ?_, i2⟩
      obtain ⟨d'', h1, h2⟩ := i1 (fun i n k h => (shift i n k h).mpr (hk (i + 1) n k (by simpa using h)))
      exact ⟨d'', h1, by simpa using h2⟩
    have split : (∃ i n k, (c :: cs)[i]? = some (.update n k) ∧ n ∉ names (pre ++ (c :: cs).take i)) →
        (∃ n k, c = .update n k ∧ n ∉ names pre) ∨ ∃ i n k, cs[i]? = some (.update n k) ∧ n ∉ names (pre ++ [c] ++ cs.take i) := by
      rintro ⟨i, n, k, h1, h2⟩
      cases i with
      | zero => exact .inl ⟨n, k, by simpa using h1, by simpa using h2⟩
      | succ i => exact .inr ⟨i, n, k, by simpa using h1, fun h => h2 ((shift i n k (by simpa using h1)).mp h)⟩
    rw [textsFrom_cons]
    cases c with
    | add n m t =>
      obtain ⟨t1, t2⟩ := tail _ (H.add n m t)
      refine ⟨fun hk => ?_, fun hb => ?_⟩
      · obtain ⟨d'', h1, h2⟩ := t1 hk
        exact ⟨d'', h1, h2⟩
      · obtain ⟨_, _, h, _⟩ | hb := split hb
        · cases h
        · exact t2 hb
    | update n k =>
      have hu := H.update n k
      refine ⟨fun hk => ?_, fun hb => ?_⟩
      · have hn : n ∈ names pre := by simpa using hk 0 n k (by simp)
        rw [if_pos hn] at hu
        obtain ⟨d', hd, H'⟩ := hu
        obtain ⟨d'', h1, h2⟩ := (tail _ H').1 hk
        exact ⟨d'', by simp only [run, hd]; exact h1, h2⟩
      · by_cases hn : n ∈ names pre
        · rw [if_pos hn] at hu
          obtain ⟨d', hd, H'⟩ := hu
          obtain ⟨n', k', h, h'⟩ | hb := split hb
          · cases h; exact absurd hn h'
          · simp only [run, hd]
            exact (tail _ H').2 hb
        · rw [if_neg hn] at hu
          simp only [run, hu]
    | display =>
      obtain ⟨h1, H'⟩ := H.display
      obtain ⟨t1, t2⟩ := tail _ H'
      refine ⟨fun hk => ?_, fun hb => ?_⟩
      · obtain ⟨d'', h3, h2⟩ := t1 hk
        exact ⟨d'', by simp only [run, h3, h1, shows, if_true, List.singleton_append], h2⟩
      · obtain ⟨_, _, h, _⟩ | hb := split hb
        · cases h
        · simp only [run, t2 hb]

/-- C86: whatever the calls, each display shows what was given and counted; KeyError exactly if a name is updated that was not added -/
theorem C86_display (tty : Bool) (cs : List Call) :
    (Known cs → ∃ d, run (Display.new tty) cs = .ok (texts tty cs, d)) ∧ (¬ Known cs → run (Display.new tty) cs = .error .keyError) := by
  obtain ⟨h1, h2⟩ := run_from cs [] _ (Holds.new tty)
  have e : textsFrom tty [] cs = texts tty cs := rfl
  refine ⟨fun hk => ?_, fun hb => ?_⟩
  · obtain ⟨d, hd, -⟩ := h1 (fun i n k h => by simpa using hk i n k h)
    exact ⟨d, by rw [hd, e]⟩
  · apply h2
    unfold Known at hb
    push Not at hb
    obtain ⟨i, n, k, a, b⟩ := hb
    exact ⟨i, n, k, a, by simpa using b⟩

/-- C86 is false of the terminal: the text written before a display is not the sequence that moves the cursor up: it has brackets around the number -/
theorem C86_escape (n m : Nat) : escape n = "\x1b[<".toList ++ Names.decimal n ++ ">A".toList ∧ escape n ≠ cursorUp m := by
  refine ⟨rfl, ?_⟩
  intro h
  simp only [escape, cursorUp, List.cons.injEq, List.cons_append, true_and] at h
  have h2 : '<' ∈ Names.decimal m ++ ['A'] := by rw [← h]; exact List.mem_cons_self
  rw [List.mem_append, List.mem_singleton] at h2
  rcases h2 with h2 | h2
  · exact absurd h2 (Names.decimal_not _ (by decide) (by decide))
  · exact absurd h2 (by decide)

/-! ### generation of triplets -/

section
open ABX.Task
variable {ρ : Type}

/-- the display during a generation: `b` blocks and `c` triplets done -/
def st (tty init : Bool) (n m b c : Int) : Display :=
  ⟨[("block", "Computing triplets for by/on/across block"), ("triplets", "Triplets considered:")], [("block", n), ("triplets", m)], [("block", b), ("triplets", c)], init, tty⟩

/-- the calls for a block of the size -/
def BlockOK (cs : List Call) (s : Nat) : Prop := (cs = [.update "block" 1, .display] ∧ s = 0) ∨ cs = [.update "block" 1, .update "triplets" s, .display]

/-- what is shown when `b` blocks and `c` triplets are done -/
def progress (tty init : Bool) (n m b c : Int) : Text := (if tty && !init then escape 2 else []) ++
  (line "Computing triplets for by/on/across block" b n ++ line "Triplets considered:" c m)

theorem run_block {tty init : Bool} {n m b c : Int} {cs : List Call} {s : Nat} (h : BlockOK cs s) (rest : List Call) : run (st tty init n m b c) (cs ++ rest) =
    match run (st tty false n m (b + 1) (c + s)) rest with
    | .error er => .error er
    | .ok (ts, d) => .ok (progress tty init n m (b + 1) (c + s) :: ts, d) := by
  have hd : ∀ i b c, (st tty i n m b c).display = (progress tty i n m b c, st tty false n m b c) := by
    intro i b c
    unfold Display.display progress st
    cases i <;> cases tty <;> simp [line]
  have hb : ∀ i b c, (st tty i n m b c).update "block" 1 = .ok (st tty i n m (b + 1) c) := by
    intro i b c
    simp [Display.update, st, setItem]
  have ht : ∀ i b c, (st tty i n m b c).update "triplets" s = .ok (st tty i n m b (c + s)) := by
    intro i b c
    simp [Display.update, st, setItem, List.lookup]
  rcases h with ⟨rfl, rfl⟩ | rfl
  · simp only [List.cons_append, List.nil_append, run, hb, hd, Nat.cast_zero, Int.add_zero]
    cases run (st tty false n m (b + 1) c) rest <;> rfl
  · simp only [List.cons_append, List.nil_append, run, hb, ht, hd]
    cases run (st tty false n m (b + 1) (c + s)) rest <;> rfl

theorem run_blocks {tty : Bool} {n m : Int} {css : List (List Call)} {sizes : List Nat} (h : List.Forall₂ BlockOK css sizes) : ∀ (init : Bool) (b c : Int),
    ∃ d, run (st tty init n m b c) css.flatten =
      .ok ((List.range sizes.length).map (fun i => progress tty (init && i == 0) n m (b + (i + 1 : Nat)) (c + ((sizes.take (i + 1)).sum : Nat))), d) := by
  induction h with
  | nil => intro init b c; exact ⟨_, rfl⟩
  | @cons cs s css sizes h _ ih =>
    intro init b c
    obtain ⟨d, hd⟩ := ih false (b + 1) (c + s)
    refine ⟨d, ?_⟩
    rw [List.flatten_cons, run_block h, hd]
    simp only [Except.ok.injEq, Prod.mk.injEq, and_true]
    rw [List.length_cons, List.range_succ_eq_map, List.map_cons, List.map_map]
    congr 1
    · simp
    · apply List.map_congr_left
      intro i _
      simp only [Function.comp, Bool.false_and, Nat.succ_eq_add_one, List.take_succ_cons, List.sum_cons]
      congr 1
      · simp
      · push_cast; ring
      · push_cast; ring

theorem stats_lookup {f : List Val → Except Err (Int × Int × Int)} {ks : List (List Val)} {l : List (List Val × (Int × Int × Int))}
    (h : List.Forall₂ (fun k z => (f k).map (fun s => (k, s)) = .ok z) ks l) {k : List Val} (hk : k ∈ ks) : ∃ s, l.lookup k = some s ∧ f k = .ok s := by
  induction h with
  | nil => cases hk
  | @cons k' z ks l h _ ih =>
    cases hf : f k' with
    | error er => rw [hf] at h; cases h
    | ok s =>
      rw [hf] at h
      have h := Except.ok.inj h
      subst h
      by_cases e : k = k'
      · subst e
        exact ⟨s, by simp [List.lookup], hf⟩
      · rcases List.mem_cons.mp hk with h | h
        · exact absurd h e
        · obtain ⟨s', h1, h2⟩ := ih h
          exact ⟨s', by rw [List.lookup_cons, beq_eq_false_iff_ne.mpr e]; exact h1, h2⟩

theorem blockCalls_ok {e : Env} {T : Task.Task ρ} {L : Level ρ} {sizes : List (List Val × (Int × Int × Int))} {key : List Val} {s : Int × Int × Int} {n : Nat}
    (h1 : sizes.lookup key = some s) (h2 : blockStats e T L key = .ok s) (hn : s.1 = n) : ∃ cs, blockCalls T L sizes key = .ok cs ∧ BlockOK cs n := by
  unfold blockStats at h2
  unfold blockCalls
  cases hr : blockRow T L key with
  | error er => rw [hr] at h2; cases h2
  | ok br =>
    obtain ⟨block, row⟩ := br
    rw [hr] at h2
    dsimp only at h2 ⊢
    cases hf : T.filters.onAcrossByFilter row with
    | error er => rw [hf] at h2; cases h2
    | ok b => cases b with
      | false =>
        rw [hf] at h2
        cases h2
        exact ⟨_, rfl, .inl ⟨rfl, by simpa using hn.symm⟩⟩
      | true =>
        rw [h1]
        exact ⟨_, rfl, .inr (by rw [hn])⟩

theorem level_calls {e : Env} (he : e.Lawful) {a : Args ρ} (ha : a.OK) (hb : Spec'.KeptFirst a) {T : Task.Task ρ} (h : init e a = .ok T)
    {L : Level ρ} (hL : L ∈ T.levels) : ∃ css sizes, levelCalls e T L = .ok css ∧ List.Forall₂ BlockOK css sizes ∧
      sizes.length = (if a.across = [] then (keptOf a L.key).length else Spec.nbLabels (a.on :: a.across) (keptOf a L.key)) ∧ sizes.sum = (tripsSpec a L.key).length := by
  obtain ⟨ss, hs1, -, -, -, hs2⟩ := C80_counts he ha hb h hL false
  rw [statsOf_blocks hs1] at hs2
  obtain ⟨fr0, I⟩ := init_level he ha h hL
  have hpos := positional he ha hb h hL
  obtain ⟨-, l, hl, hlF⟩ := levelNbTriplets_ok I.hyp hpos
  have hnb := levelNb_main he ha h hL hpos
  unfold levelNbTriplets at hnb
  rw [hl] at hnb
  have hsum := Except.ok.inj hnb
  have hF := sequence_inv hl
  have hperm : (groupKeys e "gen" (T.on :: T.across) L.frame).Perm (groupKeys e "stats" (T.on :: T.across) L.frame) := (he.groups _ _).trans (he.groups _ _).symm
  let sz : List Val → Nat := fun k => match blockStats e T L k with
    | .ok s => s.1.toNat
    | .error _ => 0
  have hsz : ∀ k ∈ groupKeys e "stats" (T.on :: T.across) L.frame, ∃ s, l.lookup k = some s ∧ blockStats e T L k = .ok s ∧ s.1 = sz k := by
    intro k hk
    obtain ⟨s, h1, h2⟩ := stats_lookup hF hk
    obtain ⟨S, -, p1, p2, h3⟩ := blockStats_ok I.hyp hpos ((mem_groupKeys he).mp hk)
    refine ⟨s, h1, h2, ?_⟩
    rw [h3] at h2
    have h2 := Except.ok.inj h2
    simp only [sz, h3, ← h2]
    simp
  have hmap : (l.map (fun p => p.2.1)).sum = (((groupKeys e "stats" (T.on :: T.across) L.frame).map sz).sum : Nat) := by
    have key : ∀ ks l', List.Forall₂ (fun k z => (blockStats e T L k).map (fun s => (k, s)) = .ok z) ks l' → (∀ k ∈ ks, ∃ s, blockStats e T L k = .ok s ∧ s.1 = sz k) →
        (l'.map (fun p => p.2.1)).sum = ((ks.map sz).sum : Nat) := by
      intro ks l' hF
      induction hF with
      | nil => intro _; rfl
      | @cons k z ks l' h _ ih =>
        intro hk
        obtain ⟨s, h1, h2⟩ := hk k List.mem_cons_self
        rw [h1] at h
        have h := Except.ok.inj h
        subst h
        rw [List.map_cons, List.sum_cons, ih (fun x hx => hk x (List.mem_cons_of_mem _ hx)), List.map_cons, List.sum_cons, h2]
        push_cast; rfl
    exact key _ _ hF (fun k hk => by obtain ⟨s, _, h2, h3⟩ := hsz k hk; exact ⟨s, h2, h3⟩)
  unfold levelCalls
  rw [hl]
  dsimp only
  obtain ⟨css, hc, hcF⟩ := sequence_exists (f := blockCalls T L l) (l := groupKeys e "gen" (T.on :: T.across) L.frame) (Q := fun k cs => BlockOK cs (sz k)) (by
    intro k hk
    obtain ⟨s, h1, h2, h3⟩ := hsz k (hperm.mem_iff.mp hk)
    exact blockCalls_ok h1 h2 h3)
  refine ⟨css, (groupKeys e "gen" (T.on :: T.across) L.frame).map sz, hc, ?_, ?_, ?_⟩
  · rw [List.forall₂_map_right_iff]
    exact hcF.flip
  · rw [List.length_map, hperm.length_eq, hs2]
  · have := (hperm.map sz).sum_nat
    rw [this]
    dsimp only at hsum
    rw [hmap] at hsum
    exact_mod_cast hsum

/-- C86: a verbose generation (when filters on bare columns, if any, remove the last items of the levels) shows a text for each block, with the number of blocks done and the number of triplets in them; the last one shows that all the blocks and all the triplets of the task are done -/
theorem C86_generate {e : Env} (he : e.Lawful) {a : Args ρ} (ha : a.OK) (hb : Spec'.KeptFirst a) {o : Obj ρ} (h : Obj.new e a = .ok o) (tty : Bool) :
    ∃ calls d, ∃ sizes : List Nat, genCalls e o.stats.nbBlocks o.stats.nbTriplets o.task = .ok calls ∧
      sizes.length = o.stats.nbBlocks ∧ sizes.length = (o.task.levels.map (fun L => if a.across = [] then (keptOf a L.key).length else Spec.nbLabels (a.on :: a.across) (keptOf a L.key))).sum ∧
      (sizes.sum : Int) = o.stats.nbTriplets ∧ sizes.sum = (o.task.levels.map (fun L => (tripsSpec a L.key).length)).sum ∧
      run (Display.new tty) calls = .ok ((List.range sizes.length).map (fun i => (if tty && i != 0 then escape 2 else []) ++
        (line "Computing triplets for by/on/across block" (i + 1 : Nat) sizes.length ++ line "Triplets considered:" ((sizes.take (i + 1)).sum : Nat) (sizes.sum : Nat))), d) := by
  obtain ⟨T, g, ls, hT, hc, hoT, S⟩ := new_inv h N0
  subst hoT
  have hst := S.stats
  obtain ⟨g', ls', hc', -, hblocks, -⟩ := C80_flag he ha hb hT false
  rw [hc] at hc'
  have hg := congrArg Prod.fst (Except.ok.inj hc')
  dsimp only at hg
  subst hg
  have htot := (generate_from he ha hb hT hc N0 ⟨0, fun _ _ _ => src0, 0, 0⟩).2
  have e1 : o.stats.nbBlocks = g.nbBlocks := by rw [hst]
  have e2 : o.stats.nbTriplets = g.nbTriplets := by rw [hst]
  rw [e1, e2, htot, hblocks]
  have hlev : ∀ Ls : List (Level ρ), (∀ L ∈ Ls, L ∈ o.task.levels) → ∃ cls, ∃ sizes : List Nat, sequence (Ls.map (levelCalls e o.task)) = .ok cls ∧ List.Forall₂ BlockOK cls.flatten sizes ∧
      sizes.length = (Ls.map (fun L => if a.across = [] then (keptOf a L.key).length else Spec.nbLabels (a.on :: a.across) (keptOf a L.key))).sum ∧
      sizes.sum = (Ls.map (fun L => (tripsSpec a L.key).length)).sum := by
    intro Ls
    induction Ls with
    | nil => intro _; exact ⟨[], [], rfl, .nil, rfl, rfl⟩
    | cons L Ls ih =>
      intro hm
      obtain ⟨css, sz, h1, h2, h3, h4⟩ := level_calls he ha hb hT (hm L List.mem_cons_self)
      obtain ⟨cls, sizes, k1, k2, k3, k4⟩ := ih (fun x hx => hm x (List.mem_cons_of_mem _ hx))
      refine ⟨css :: cls, sz ++ sizes, ?_, ?_, ?_, ?_⟩
      · rw [List.map_cons, h1, sequence, k1]
      · rw [List.flatten_cons]; exact List.rel_append h2 k2
      · rw [List.length_append, h3, k3, List.map_cons, List.sum_cons]
      · rw [List.sum_append, h4, k4, List.map_cons, List.sum_cons]
  obtain ⟨cls, sizes, k1, k2, k3, k4⟩ := hlev _ (fun _ h => h)
  obtain ⟨d, hd⟩ := run_blocks (tty := tty) (n := sizes.length) (m := (sizes.sum : Nat)) k2 true 0 0
  unfold genCalls
  rw [k1, ← k3, ← k4]
  refine ⟨_, d, sizes, rfl, rfl, rfl, rfl, rfl, ?_⟩
  have e3 : ∀ rest, run (Display.new tty) (.add "block" "Computing triplets for by/on/across block" sizes.length :: .add "triplets" "Triplets considered:" (sizes.sum : Nat) :: rest) =
      run (st tty true sizes.length (sizes.sum : Nat) 0 0) rest := by
    intro rest
    simp only [run, Display.new, Display.add, st, setItem, List.any_nil, List.nil_append]
    rfl
  rw [e3, hd]
  simp only [progress, Bool.true_and, Int.zero_add]
  rfl

end

/-- C86, example: a name is added twice and another updated twice -/
example : ((run (Display.new false) [.add "a" "A" 3, .update "a" 1, .add "b" "B" 2, .update "b" 1, .display, .update "b" 1, .add "a" "AA" 5, .update "a" 2, .display]).map (·.1.map String.ofList)) =
    (.ok ["A 1 on 3\nB 1 on 2\n", "AA 2 on 5\nB 2 on 2\n"] : Except Err (List String)) := by decide +kernel

/-- C86, example: an update before the name was added -/
example : (match run (Display.new true) [.update "a" 1, .add "a" "A" 3] with | .error .keyError => true | _ => false) = true := by decide +kernel

section
open ABX.Task

/-- C86, example: the hypotheses of `C86_generate` are met by the task `ex2` -/
example (tty : Bool) : ∃ o calls ts d, Obj.new E0 Pairs.ex2 = .ok o ∧ genCalls E0 o.stats.nbBlocks o.stats.nbTriplets o.task = .ok calls ∧ run (Display.new tty) calls = .ok (ts, d) ∧ ts.length = o.stats.nbBlocks := by
  obtain ⟨T, hT⟩ := init_exists (a := Pairs.ex2) (by decide +kernel)
  obtain ⟨g, ls, hc, -⟩ := C80_flag E0_lawful Pairs.ex2_ok (.of_not_bare (by intro f hf; cases hf)) hT false
  have ho : Obj.new E0 Pairs.ex2 = .ok ⟨T, g, ls.map (fun p => (p.1, p.2, none))⟩ := by
    unfold Obj.new
    rw [hT]
    dsimp only
    rw [hc]
  obtain ⟨calls, d, sizes, h1, h2, -, -, -, h3⟩ := C86_generate E0_lawful Pairs.ex2_ok (.of_not_bare (by intro f hf; cases hf)) ho tty
  exact ⟨_, calls, _, d, ho, h1, h3, by rw [List.length_map, List.length_range, h2]⟩

/-- what a verbose generation shows; then, with the object that it leaves, a second one -/
def shownTwice (a : Args Nat) : Except Err (List String × List String) :=
  match Obj.new E0 a with
  | .error er => .error er
  | .ok o => match genCalls E0 o.stats.nbBlocks o.stats.nbTriplets o.task with
    | .error er => .error er
    | .ok c1 => match run (Display.new false) c1, o.generate E0 N0 genArgs0 with
      | .ok (t1, _), .ok (_, o') => match genCalls E0 o'.stats.nbBlocks o'.stats.nbTriplets o'.task with
        | .error er => .error er
        | .ok c2 => (run (Display.new false) c2).map (fun r => (t1.map String.ofList, r.1.map String.ofList))
      | _, _ => .error .assertion

/-- C86 is false of a second generation: the levels without triplets were deleted but the number of blocks was not changed -/
theorem C86_violated : (shownTwice ex).map (fun r => (r.1.getLast?, r.2.getLast?)) = .ok
    (some "Computing triplets for by/on/across block 4 on 4\nTriplets considered: 4 on 4\n", some "Computing triplets for by/on/across block 3 on 4\nTriplets considered: 4 on 4\n") := by decide +kernel

end

#print axioms C86_violated
#print axioms C86_display
#print axioms C86_escape
#print axioms C86_generate

end ABX.Progress
