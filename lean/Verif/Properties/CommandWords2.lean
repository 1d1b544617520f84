import Verif.Properties.CommandWords
import Verif.Proofs.ArgparseUnknown
/-!
C99, continued: words that are no options, and what the programs do with the values.
-/
namespace ABX.Argparse
open Database (Text)
open Spec

namespace Spec
/-- a word that looks like an option, but no option begins with it (or with its part before '='), it is not a letter of an option with something after it, not a negative number, and has no blank -/
structure Unknown (P : Parser) (s : Text) : Prop where
  dash : s.head? = some '-'
  long : 1 < s.length
  dashes : s ≠ "--".toList
  whole : ∀ o ∈ P.opts, ∀ full ∈ o.strings, ¬ s <+: full
  before : ∀ a v, s = a ++ '=' :: v → '=' ∉ a → ∀ o ∈ P.opts, ∀ full ∈ o.strings, ¬ a <+: full
  letter : ∀ o ∈ P.opts, ∀ full ∈ o.strings, full ≠ s.take 2
  number : ¬ (∀ c ∈ s.tail, c.isDigit = true ∨ c = '.')
  blank : ' ' ∉ s
end Spec

theorem partition_cases (s : Text) : (partition s = (s, none) ∧ '=' ∉ s) ∨ ∃ a v, s = a ++ '=' :: v ∧ '=' ∉ a ∧ partition s = (a, some v) := by
  by_cases h : '=' ∈ s
  · obtain ⟨a, v, rfl, ha⟩ := List.eq_append_cons_of_mem h
    exact Or.inr ⟨a, v, rfl, ha, partition_some ha⟩
  · exact Or.inl ⟨partition_none h, h⟩

theorem negative_digits {s : Text} (h : isNegative s = true) : ∀ c ∈ s.tail, c.isDigit = true ∨ c = '.' := by
  unfold isNegative at h
  split at h
  · next t =>
    rw [Bool.or_eq_true] at h
    intro c hc
    rw [List.tail_cons] at hc
    rcases h with h | h
    · rw [Bool.and_eq_true] at h
      exact Or.inl (List.all_eq_true.mp h.2 c hc)
    · split at h
      · next u hu =>
        rw [Bool.and_eq_true] at h
        rw [← List.takeWhile_append_dropWhile (p := Char.isDigit) (l := t), hu, List.mem_append, List.mem_cons] at hc
        rcases hc with hc | rfl | hc
        · exact Or.inl (List.all_eq_true.mp List.all_takeWhile c hc)
        · exact Or.inr rfl
        · exact Or.inl (List.all_eq_true.mp h.2 c hc)
      · cases h
  · cases h

theorem parse_unknown {P : Parser} {s : Text} (h : Unknown P s) : parseOptional P s = .ok (some ⟨none, s, false, none⟩) := by
  have hlook : ∀ u : Text, (∀ o ∈ P.opts, ∀ full ∈ o.strings, ¬ u <+: full) → P.table.lookup u = none := fun u hu => lookup_none fun p hp e => by
    obtain ⟨q, r⟩ := p
    obtain ⟨g1, g2⟩ := mem_table.mp hp
    exact hu r g1 q g2 (by dsimp only at e; rw [e]; exact List.prefix_refl _)
  have hpart : ∀ o ∈ P.opts, ∀ full ∈ o.strings, ¬ (partition s).1 <+: full := by
    rcases partition_cases s with ⟨e, -⟩ | ⟨a, v, e1, e2, e3⟩
    · rw [e]; exact h.whole
    · rw [e3]; exact h.before a v e1 e2
  have htup : optionTuples P s = [] := by
    unfold optionTuples
    split
    · rw [List.map_eq_nil_iff, List.filter_eq_nil_iff]
      rintro ⟨q, r⟩ hp e
      obtain ⟨g1, g2⟩ := mem_table.mp hp
      exact hpart r g1 q g2 (by simpa using e)
    · rw [List.filterMap_eq_nil_iff]
      rintro ⟨q, r⟩ hp
      obtain ⟨g1, g2⟩ := mem_table.mp hp
      rw [if_neg (h.letter r g1 q g2), if_neg (by simpa using h.whole r g1 q g2)]
  have hneg : isNegative s = false := by
    cases hx : isNegative s
    · rfl
    · exact absurd (negative_digits hx) h.number
  have h2 := h.long
  have h1 := h.dash
  have h3 := hlook s h.whole
  have h4 := hlook _ hpart
  have h5 := h.blank
  match s, h1, h2, h3, h4, h5, htup, hneg with
  | c :: d :: t, h1, _, h3, h4, h5, htup, hneg =>
    obtain rfl : c = '-' := by simpa using h1
    unfold parseOptional
    dsimp only
    rw [if_neg (by simp), h3]
    dsimp only
    rw [if_neg (by simp), h4]
    have e : ∀ x : Option Text, (match x, (none : Option Opt) with
        | some e, some o => Except.ok (some (⟨some o, (partition ('-' :: d :: t)).1, true, some e⟩ : Tok))
        | _, _ => match optionTuples P ('-' :: d :: t) with
          | [tok] => .ok (some tok)
          | _ :: _ :: _ => .error Exit.usage
          | [] => if isNegative ('-' :: d :: t) then .ok none else if ' ' ∈ '-' :: d :: t then .ok none else .ok (some ⟨none, '-' :: d :: t, false, none⟩)) = .ok (some ⟨none, '-' :: d :: t, false, none⟩) := by
      intro x
      rw [htup, hneg]
      cases x <;> (dsimp only; rw [if_neg (by simp), if_neg h5])
    exact e _

/-- C99: a word that looks like an option and is none, anywhere before '--', is never taken as a value: the program does not start. -/
theorem C99_unknown {P : Parser} {isInt : Text → Bool} {s : Text} (h : Unknown P s) {a b : List Text} (ha : "--".toList ∉ a) : ∃ e, parse P isInt (a ++ s :: b) = .error e := by
  rcases classify_mem (parse_unknown h) h.dashes a b ha with ⟨e, he⟩ | ⟨items, he, hm⟩
  · refine ⟨e, ?_⟩
    unfold parse
    rw [he]
  · exact parse_bad he (Or.inr ⟨_, _, hm, rfl⟩)

/-- C99: the beginning of two strings of options is refused. -/
theorem C99_ambiguous {P : Parser} {isInt : Text → Bool} {s : Text} (h1 : "--".toList <+: s) (h2 : 2 < s.length) (h3 : '=' ∉ s) (hno : ∀ o ∈ P.opts, s ∉ o.strings) {o o' : Opt} (ho : o ∈ P.opts) (ho' : o' ∈ P.opts)
    {f f' : Text} (hf : f ∈ o.strings) (hf' : f' ∈ o'.strings) (hne : f ≠ f') (hp : s <+: f) (hp' : s <+: f') {a b : List Text} (ha : "--".toList ∉ a) : parse P isInt (a ++ s :: b) = .error .usage := by
  have hl : P.table.lookup s = none := lookup_none fun p hp e => by
    obtain ⟨q, r⟩ := p
    obtain ⟨g1, g2⟩ := mem_table.mp hp
    exact hno r g1 (by dsimp only at e; rw [← e]; exact g2)
  have htup : ∃ x y l, optionTuples P s = x :: y :: l := by
    unfold optionTuples
    rw [if_pos (by simpa using h1), partition_none h3]
    have m1 : (f, o) ∈ P.table.filter (fun p => s.isPrefixOf p.1) := List.mem_filter.mpr ⟨mem_table.mpr ⟨ho, hf⟩, by simpa using hp⟩
    have m2 : (f', o') ∈ P.table.filter (fun p => s.isPrefixOf p.1) := List.mem_filter.mpr ⟨mem_table.mpr ⟨ho', hf'⟩, by simpa using hp'⟩
    match hx : P.table.filter (fun p => s.isPrefixOf p.1) with
    | [] => rw [hx] at m1; cases m1
    | [x] =>
      rw [hx, List.mem_singleton] at m1 m2
      exact absurd (Prod.mk.inj (m1.trans m2.symm)).1 hne
    | x :: y :: l =>
      dsimp only
      rw [hx]
      exact ⟨_, _, _, rfl⟩
  obtain ⟨x, y, l, htup⟩ := htup
  have hpo : parseOptional P s = .error .usage := by
    match s, h1, h2, h3, hl, htup with
    | c :: d :: t, h1, _, h3, hl, htup =>
      obtain rfl : c = '-' := (List.cons_prefix_cons.mp h1).1.symm
      unfold parseOptional
      dsimp only
      rw [if_neg (by simp), hl]
      dsimp only
      rw [if_neg (by simp), partition_none h3]
      dsimp only
      rw [htup]
  have := classify_error hpo (fun e => by rw [e] at h2; simp at h2) a b ha
  unfold parse
  rw [this]

/-! ### the programs -/

/-- the arguments of the last time an option is written -/
def Spec.given (gs : List Group) (name : String) : Option (List Text) := ((gs.filter (fun g => name.toList ∈ g.opt.strings)).getLast?).map (·.args)

theorem means_given {P : Parser} (hP : Sane P) {vs : List Text} {gs : List Group} (hg : ∀ g ∈ gs, g.opt ∈ P.opts) {ns : List (Text × List Text)} (h : Means P vs gs ns) (name : String) (o : Opt) (ho : o ∈ P.opts) (hs : name.toList ∈ o.strings) :
    ns.lookup o.dest = given gs name := by
  rw [h.opt o ho]
  unfold given
  congr 2
  refine List.filter_congr fun g hg' => ?_
  rw [decide_eq_decide]
  constructor
  · rintro rfl; exact hs
  · intro hs'
    have e1 := table_lookup hP (hg g hg') hs'
    rw [table_lookup hP ho hs] at e1
    exact (Option.some.inj e1).symm

/-- the call that the words stand for: database, output, and the options -/
def Spec.taskMeaning (int : Text → Option Int) (gs : List Group) (database : Text) (output : Option Text) (on : Text) : TaskCall where
  database := database
  on := on
  across := (given gs "--across").getD []
  by_ := (given gs "--by").getD []
  filters := (given gs "--filters").getD []
  regressors := (given gs "--regressors").getD []
  verbose := (given gs "--verbose").isSome
  statsOnly := (given gs "--stats-only").isSome
  output := output
  threshold := (given gs "--threshold").bind (fun l => l.head?.bind int)
  tempdir := (given gs "--tempdir").bind List.head?
  seed := (given gs "--seed").bind (fun l => l.head?.bind int)

theorem task_means {int : Text → Option Int} {gs : List Group} (hg : ∀ g ∈ gs, g.opt ∈ taskParser.opts) {database : Text} {output : Option Text} {on : Text} (hon : given gs "--on" = some [on]) {ns : List (Text × List Text)}
    (h : Means taskParser (database :: output.toList) gs ns) : taskCall int ns = some (taskMeaning int gs database output on) := by
  have hd := h.pos 0 ⟨"database".toList, false⟩ rfl
  have ho := h.pos 1 ⟨"output".toList, true⟩ rfl
  have k := fun name o h1 h2 => means_given sane_task hg h name o h1 h2
  have k1 := k "--on" ⟨["-o".toList, "--on".toList], .one, "on".toList, true, false⟩ (by decide +kernel) (by decide +kernel)
  have k2 := k "--across" ⟨["-a".toList, "--across".toList], .plus, "across".toList, false, false⟩ (by decide +kernel) (by decide +kernel)
  have k3 := k "--by" ⟨["-b".toList, "--by".toList], .plus, "by".toList, false, false⟩ (by decide +kernel) (by decide +kernel)
  have k4 := k "--filters" ⟨["-f".toList, "--filters".toList], .plus, "filters".toList, false, false⟩ (by decide +kernel) (by decide +kernel)
  have k5 := k "--regressors" ⟨["-r".toList, "--regressors".toList], .plus, "regressors".toList, false, false⟩ (by decide +kernel) (by decide +kernel)
  have k6 := k "--verbose" ⟨["-v".toList, "--verbose".toList], .flag, "verbose".toList, false, false⟩ (by decide +kernel) (by decide +kernel)
  have k7 := k "--stats-only" ⟨["--stats-only".toList], .flag, "stats_only".toList, false, false⟩ (by decide +kernel) (by decide +kernel)
  have k8 := k "--tempdir" ⟨["--tempdir".toList], .one, "tempdir".toList, false, false⟩ (by decide +kernel) (by decide +kernel)
  have k9 := k "--seed" ⟨["--seed".toList], .one, "seed".toList, false, true⟩ (by decide +kernel) (by decide +kernel)
  have k10 := k "--threshold" ⟨["-t".toList, "--threshold".toList], .one, "threshold".toList, false, true⟩ (by decide +kernel) (by decide +kernel)
  dsimp only at hd ho k1 k2 k3 k4 k5 k6 k7 k8 k9 k10
  unfold taskCall taskMeaning single several
  rw [hd, ho, k1, k2, k3, k4, k5, k6, k7, k8, k9, k10, hon]
  cases output <;> cases given gs "--threshold" <;> cases given gs "--seed" <;> rfl

theorem given_on {gs : List Group} {l : List Text} (hw : Written taskParser gs l) {on : Text} (hon : given gs "--on" = some [on]) : ∀ o ∈ taskParser.opts, o.required = true → ∃ g ∈ gs, g.opt = o := by
  intro o ho hr
  have : o = ⟨["-o".toList, "--on".toList], .one, "on".toList, true, false⟩ := by
    have : ∀ o ∈ taskParser.opts, o.required = true → o = ⟨["-o".toList, "--on".toList], .one, "on".toList, true, false⟩ := by decide +kernel
    exact this o ho hr
  subst this
  unfold given at hon
  rw [Option.map_eq_some_iff] at hon
  obtain ⟨g, hg, -⟩ := hon
  have hm := List.mem_of_getLast? hg
  rw [List.mem_filter] at hm
  refine ⟨g, hm.1, ?_⟩
  have e1 := table_lookup sane_task (written_opt hw g hm.1) (by simpa using hm.2)
  rw [table_lookup sane_task ho (by simp)] at e1
  exact (Option.some.inj e1).symm

/-- C99: the two forms of the documentation of task.py are the same call, which gets the names of the database and of the output file and for each option what is written the last time, or its default. -/
theorem C99_task {int : Text → Option Int} {gs : List Group} {l : List Text} (hw : Written taskParser gs l) (hf : ∀ g ∈ gs, Fits (fun t => (int t).isSome) g) {on : Text} (hon : given gs "--on" = some [on]) {database : Text} {output : Option Text}
    (hv : ∀ v ∈ database :: output.toList, Value v) :
    taskLine int ((database :: output.toList) ++ l) = .ok (some (taskMeaning int gs database output on)) ∧
    taskLine int (l ++ "--".toList :: (database :: output.toList)) = .ok (some (taskMeaning int gs database output on)) := by
  have hr := given_on hw hon
  have h1 : must taskParser ≤ (database :: output.toList).length := by
    have : must taskParser = 1 := rfl
    rw [this, List.length_cons]; omega
  have h2 : (database :: output.toList).length ≤ taskParser.pos.length := by cases output <;> simp [taskParser]
  obtain ⟨ns, e, hm⟩ := C99_before sane_task hw hf hr hv h1 h2
  obtain ⟨ns', e', hm'⟩ := C99_dashes sane_task hw hf hr (vs := database :: output.toList) (by rintro v h rfl; exact hv _ h rfl) h1 h2
  unfold taskLine
  rw [e, e']
  exact ⟨congrArg Except.ok (task_means (written_opt hw) hon hm), congrArg Except.ok (task_means (written_opt hw) hon hm')⟩

/-- the call that the words stand for -/
def Spec.distanceMeaning (int : Text → Option Int) (gs : List Group) (features task output : Text) : Option DistanceCall :=
  if given gs "--distance" = none ∧ given gs "--normalization" = none then none
  else some
    { features := features, task := task, output := output
      normalized := (given gs "--normalization").bind (fun l => l.head?.bind int)
      distance := (given gs "--distance").bind List.head?
      njobs := ((given gs "--njobs").bind (fun l => l.head?.bind int)).getD 1
      group := ((given gs "--group").bind List.head?).getD "features".toList }

theorem given_fits {isInt : Text → Bool} {P : Parser} (hP : Sane P) {gs : List Group} (hg : ∀ g ∈ gs, g.opt ∈ P.opts) (hf : ∀ g ∈ gs, Fits isInt g) {name : String} {o : Opt} (ho : o ∈ P.opts) (hs : name.toList ∈ o.strings) {args : List Text}
    (h : given gs name = some args) : Fits isInt ⟨o, args⟩ := by
  unfold given at h
  rw [Option.map_eq_some_iff] at h
  obtain ⟨g, hgl, rfl⟩ := h
  have hm := List.mem_of_getLast? hgl
  rw [List.mem_filter] at hm
  have e1 := table_lookup hP (hg g hm.1) (by simpa using hm.2)
  rw [table_lookup hP ho hs] at e1
  have := hf g hm.1
  rw [Option.some.inj e1]
  exact this

theorem distance_means {int : Text → Option Int} {gs : List Group} (hg : ∀ g ∈ gs, g.opt ∈ distanceParser.opts) (hf : ∀ g ∈ gs, Fits (fun t => (int t).isSome) g) {features task output : Text} {ns : List (Text × List Text)}
    (h : Means distanceParser [features, task, output] gs ns) : distanceCall int ns = some (distanceMeaning int gs features task output) := by
  have h0 := h.pos 0 ⟨"features".toList, false⟩ rfl
  have h1 := h.pos 1 ⟨"task".toList, false⟩ rfl
  have h2 := h.pos 2 ⟨"output".toList, false⟩ rfl
  have m1 : (⟨["-g".toList, "--group".toList], .one, "group".toList, false, false⟩ : Opt) ∈ distanceParser.opts := by decide +kernel
  have m2 : (⟨["-d".toList, "--distance".toList], .one, "distance".toList, false, false⟩ : Opt) ∈ distanceParser.opts := by decide +kernel
  have m3 : (⟨["-j".toList, "--njobs".toList], .one, "njobs".toList, false, true⟩ : Opt) ∈ distanceParser.opts := by decide +kernel
  have m4 : (⟨["-n".toList, "--normalization".toList], .one, "normalization".toList, false, true⟩ : Opt) ∈ distanceParser.opts := by decide +kernel
  have k1 := means_given sane_distance hg h "--group" _ m1 (by simp)
  have k2 := means_given sane_distance hg h "--distance" _ m2 (by simp)
  have k3 := means_given sane_distance hg h "--njobs" _ m3 (by simp)
  have k4 := means_given sane_distance hg h "--normalization" _ m4 (by simp)
  dsimp only at h0 h1 h2 k1 k2 k3 k4
  have f2 : given gs "--distance" = none ↔ (given gs "--distance").bind List.head? = none := by
    cases hx : given gs "--distance" with
    | none => simp
    | some args =>
      obtain ⟨v, hv⟩ := List.length_eq_one_iff.mp (given_fits sane_distance hg hf m2 (by simp) hx).1
      dsimp only at hv
      rw [hv]
      simp
  have f4 : given gs "--normalization" = none ↔ (given gs "--normalization").bind (fun l => l.head?.bind int) = none := by
    cases hx : given gs "--normalization" with
    | none => simp
    | some args =>
      have hfit := given_fits sane_distance hg hf m4 (by simp) hx
      obtain ⟨v, hv⟩ := List.length_eq_one_iff.mp hfit.1
      dsimp only at hv
      have := hfit.2 rfl v (by dsimp only; rw [hv]; simp)
      rw [hv]
      simpa [Option.isSome_iff_ne_none] using this
  unfold distanceCall single
  rw [h0, h1, h2, k1, k2, k3, k4]
  have b : ∀ x : Option (List Text), (x.bind List.head?).bind int = x.bind (fun l => l.head?.bind int) := by
    intro x; cases x <;> rfl
  simp only [b]
  unfold distanceMeaning
  by_cases hc : given gs "--distance" = none ∧ given gs "--normalization" = none
  · rw [if_pos hc]
    rw [f2, f4] at hc
    simp only [if_pos hc]
    rfl
  · rw [if_neg hc]
    rw [f2, f4] at hc
    simp only [if_neg hc]
    rfl

/-- C99: distance.py gets its three files and its options wherever the options are written before, after or among the files, and ends with a message when neither a distance nor a normalization is written. -/
theorem C99_distance {int : Text → Option Int} {gs : List Group} {l : List Text} (hw : Written distanceParser gs l) (hf : ∀ g ∈ gs, Fits (fun t => (int t).isSome) g) {features task output : Text} (hv : ∀ v ∈ [features, task, output], Value v)
    {vs ws : List Text} (he : vs ++ ws = [features, task, output]) : distanceLine int (vs ++ (l ++ ws)) = .ok (some (distanceMeaning int gs features task output)) := by
  have hr : ∀ o ∈ distanceParser.opts, o.required = true → ∃ g ∈ gs, g.opt = o := by
    intro o ho hr
    have : ∀ o ∈ distanceParser.opts, o.required = false := by decide +kernel
    rw [this o ho] at hr
    cases hr
  have hl : ∀ g ∈ gs.getLast?, g.opt.nargs ≠ .plus := by
    intro g hg
    have : ∀ o ∈ distanceParser.opts, o.nargs ≠ .plus := by decide +kernel
    exact this _ (written_opt hw g (List.mem_of_getLast? hg))
  have hm3 : must distanceParser = 3 := rfl
  have hlen : (vs ++ ws).length = 3 := by rw [he]; rfl
  have hv1 : ∀ v ∈ vs, Value v := fun v h => hv v (by rw [← he]; exact List.mem_append_left _ h)
  have hv2 : ∀ v ∈ ws, Value v := fun v h => hv v (by rw [← he]; exact List.mem_append_right _ h)
  have hok : ∃ ns, parse distanceParser (fun t => (int t).isSome) (vs ++ (l ++ ws)) = .ok ns ∧ Means distanceParser (vs ++ ws) gs ns := by
    by_cases hws : ws = []
    · subst hws
      rw [List.append_nil] at hlen ⊢
      rw [List.append_nil]
      exact C99_before sane_distance hw hf hr hv1 (by rw [hm3]; omega) (by rw [hlen]; decide)
    · have := List.length_pos_of_ne_nil hws
      rw [List.length_append] at hlen
      exact C99_between sane_distance hw hf hr hl hv1 hv2 (by rw [hm3]; omega) (by rw [hm3, List.length_append]; omega) (by rw [List.length_append, hlen]; decide)
  obtain ⟨ns, e, hm⟩ := hok
  rw [he] at hm
  unfold distanceLine
  rw [e]
  exact congrArg Except.ok (distance_means (written_opt hw) hf hm)

/-- C99: the programs without options get their files in the documented order, also after '--', and only the file of the scores may be missing. -/
theorem C99_files {vs : List Text} (hv : ∀ v ∈ vs, v ≠ "--".toList) {d : List Text} (hd : d = ["--".toList] ∨ (d = [] ∧ ∀ v ∈ vs, Value v)) :
    (∀ task distance score, vs = task :: distance :: Option.toList score → scoreLine (d ++ vs) = .ok (some (task, distance, score))) ∧
    (∀ scores task results, vs = [scores, task, results] → analyzeLine (d ++ vs) = .ok (some (task, scores, results))) ∧
    (∀ items features, vs = [items, features] → verifyLine (d ++ vs) = .ok (some (items, features))) ∧
    (∀ folder file, vs = [folder, file] → convertLine (d ++ vs) = .ok (some (folder, file))) := by
  have key : ∀ {P : Parser}, Sane P → (∀ o ∈ P.opts, o.required = false) → must P ≤ vs.length → vs.length ≤ P.pos.length → ∃ ns, parse P (fun _ => false) (d ++ vs) = .ok ns ∧ Means P vs [] ns := by
    intro P hP hno h1 h2
    have hr : ∀ o ∈ P.opts, o.required = true → ∃ g ∈ ([] : List Group), g.opt = o := by
      intro o ho hr
      rw [hno o ho] at hr
      cases hr
    rcases hd with rfl | ⟨rfl, hval⟩
    · exact C99_dashes hP .nil (by simp) hr hv h1 h2
    · have := C99_before hP .nil (isInt := fun _ => false) (by simp) hr hval h1 h2
      rwa [List.append_nil] at this
  refine ⟨?_, ?_, ?_, ?_⟩
  · rintro task distance score rfl
    obtain ⟨ns, e, hm⟩ := key sane_score (by decide +kernel) (by have : must scoreParser = 2 := rfl; simp [this]) (by cases score <;> simp [scoreParser])
    have h0 := hm.pos 0 ⟨"task".toList, false⟩ rfl
    have h1 := hm.pos 1 ⟨"distance".toList, false⟩ rfl
    have h2 := hm.pos 2 ⟨"score".toList, true⟩ rfl
    dsimp only at h0 h1 h2
    unfold scoreLine single
    rw [e]
    dsimp only [Except.map]
    rw [h0, h1, h2]
    cases score <;> rfl
  · rintro scores task results rfl
    obtain ⟨ns, e, hm⟩ := key sane_analyze (by decide +kernel) (Nat.le_refl 3) (Nat.le_refl 3)
    have h0 := hm.pos 0 ⟨"scorefile".toList, false⟩ rfl
    have h1 := hm.pos 1 ⟨"taskfile".toList, false⟩ rfl
    have h2 := hm.pos 2 ⟨"output".toList, false⟩ rfl
    dsimp only at h0 h1 h2
    unfold analyzeLine single
    rw [e]
    dsimp only [Except.map]
    rw [h0, h1, h2]
    rfl
  · rintro items features rfl
    obtain ⟨ns, e, hm⟩ := key sane_verify (by decide +kernel) (Nat.le_refl 2) (Nat.le_refl 2)
    have h0 := hm.pos 0 ⟨"item".toList, false⟩ rfl
    have h1 := hm.pos 1 ⟨"features".toList, false⟩ rfl
    dsimp only at h0 h1
    unfold verifyLine single
    rw [e]
    dsimp only [Except.map]
    rw [h0, h1]
    rfl
  · rintro folder file rfl
    obtain ⟨ns, e, hm⟩ := key sane_convert (by decide +kernel) (Nat.le_refl 2) (Nat.le_refl 2)
    have h0 := hm.pos 0 ⟨"folder".toList, false⟩ rfl
    have h1 := hm.pos 1 ⟨"h5_filename".toList, false⟩ rfl
    dsimp only at h0 h1
    unfold convertLine single
    rw [e]
    dsimp only [Except.map]
    rw [h0, h1]
    rfl

/-- C99: ABXrun.py gets its three files and its options wherever the options are written before, after or among the files; the third file is stored under the name `config`. -/
theorem C99_run {gs : List Group} {l : List Text} (hw : Written runParser gs l) (hf : ∀ g ∈ gs, Fits (fun _ => false) g) {items features config : Text} (hv : ∀ v ∈ [items, features, config], Value v) {vs ws : List Text}
    (he : vs ++ ws = [items, features, config]) : ∃ ns, runLine (vs ++ (l ++ ws)) = .ok ns ∧
      ns.lookup "itemfile".toList = some [items] ∧ ns.lookup "featurefile".toList = some [features] ∧ ns.lookup "config".toList = some [config] ∧
      (∀ name ∈ ["taskfile", "distancefile", "analyzefile", "scorefile", "distance", "name"], ns.lookup name.toList = given gs ("--" ++ name)) := by
  have hr : ∀ o ∈ runParser.opts, o.required = true → ∃ g ∈ gs, g.opt = o := by
    intro o ho hr
    have : ∀ o ∈ runParser.opts, o.required = false := by decide +kernel
    rw [this o ho] at hr
    cases hr
  have hl : ∀ g ∈ gs.getLast?, g.opt.nargs ≠ .plus := by
    intro g hg
    have : ∀ o ∈ runParser.opts, o.nargs ≠ .plus := by decide +kernel
    exact this _ (written_opt hw g (List.mem_of_getLast? hg))
  have hm3 : must runParser = 3 := rfl
  have hlen : (vs ++ ws).length = 3 := by rw [he]; rfl
  have hv1 : ∀ v ∈ vs, Value v := fun v h => hv v (by rw [← he]; exact List.mem_append_left _ h)
  have hv2 : ∀ v ∈ ws, Value v := fun v h => hv v (by rw [← he]; exact List.mem_append_right _ h)
  have hok : ∃ ns, parse runParser (fun _ => false) (vs ++ (l ++ ws)) = .ok ns ∧ Means runParser (vs ++ ws) gs ns := by
    by_cases hws : ws = []
    · subst hws
      rw [List.append_nil] at hlen ⊢
      rw [List.append_nil]
      exact C99_before sane_run hw hf hr hv1 (by rw [hm3]; omega) (by rw [hlen]; decide)
    · have := List.length_pos_of_ne_nil hws
      rw [List.length_append] at hlen
      exact C99_between sane_run hw hf hr hl hv1 hv2 (by rw [hm3]; omega) (by rw [hm3, List.length_append]; omega) (by rw [List.length_append, hlen]; decide)
  obtain ⟨ns, e, hm⟩ := hok
  rw [he] at hm
  refine ⟨ns, e, hm.pos 0 ⟨"itemfile".toList, false⟩ rfl, hm.pos 1 ⟨"featurefile".toList, false⟩ rfl, hm.pos 2 ⟨"config".toList, false⟩ rfl, ?_⟩
  intro name hn
  simp only [List.mem_cons, List.not_mem_nil, or_false] at hn
  have k := fun name o h1 h2 => means_given sane_run (written_opt hw) hm name o h1 h2
  rcases hn with rfl | rfl | rfl | rfl | rfl | rfl
  · exact k "--taskfile" ⟨["--taskfile".toList], .one, "taskfile".toList, false, false⟩ (by decide +kernel) (by simp)
  · exact k "--distancefile" ⟨["--distancefile".toList], .one, "distancefile".toList, false, false⟩ (by decide +kernel) (by simp)
  · exact k "--analyzefile" ⟨["--analyzefile".toList], .one, "analyzefile".toList, false, false⟩ (by decide +kernel) (by simp)
  · exact k "--scorefile" ⟨["--scorefile".toList], .one, "scorefile".toList, false, false⟩ (by decide +kernel) (by simp)
  · exact k "--distance" ⟨["--distance".toList], .one, "distance".toList, false, false⟩ (by decide +kernel) (by simp)
  · exact k "--name" ⟨["--name".toList], .one, "name".toList, false, false⟩ (by decide +kernel) (by simp)

/-! ### examples -/

namespace Example
/-- `int` of texts of decimal digits, for the examples -/
def int0 (t : Text) : Option Int := if !t.isEmpty && t.all Char.isDigit then some (t.foldl (fun n c => 10 * n + (c.toNat - 48)) 0 : Nat) else none

def words (s : List String) : List Text := s.map String.toList

def oOn : Opt := ⟨["-o".toList, "--on".toList], .one, "on".toList, true, false⟩
def oAcross : Opt := ⟨["-a".toList, "--across".toList], .plus, "across".toList, false, false⟩
def oThreshold : Opt := ⟨["-t".toList, "--threshold".toList], .one, "threshold".toList, false, true⟩

/-- `-o column1 --acr column2 column3 --threshold=5` -/
def groups : List Group := [⟨oOn, words ["column1"]⟩, ⟨oAcross, words ["column2", "column3"]⟩, ⟨oThreshold, words ["5"]⟩]

theorem groups_written : Written taskParser groups (words ["-o", "column1", "--acr", "column2", "column3", "--threshold=5"]) := by
  refine .cons (l := words ["-o", "column1"]) (.apart ⟨by decide +kernel, Or.inl (by decide +kernel)⟩ ?_) (.cons (l := words ["--acr", "column2", "column3"]) (.apart ⟨by decide +kernel, Or.inr ?_⟩ ?_)
    (.cons (l := words ["--threshold=5"]) (l' := []) (.joined (s := "--threshold".toList) (v := "5".toList) ⟨by decide +kernel, Or.inl (by decide +kernel)⟩ rfl) .nil))
  · intro v hv
    have : ∀ v ∈ words ["column1"], Value v := by unfold Value; decide +kernel
    exact this v hv
  · refine ⟨by decide +kernel, by decide +kernel, by decide +kernel, by decide +kernel, by decide +kernel, "--across".toList, by decide +kernel, by decide +kernel, ?_⟩
    have : ∀ o' ∈ taskParser.opts, ∀ full' ∈ o'.strings, "--acr".toList <+: full' → full' = "--across".toList := by decide +kernel
    exact this
  · intro v hv
    have : ∀ v ∈ words ["column2", "column3"], Value v := by unfold Value; decide +kernel
    exact this v hv

theorem groups_fit : ∀ g ∈ groups, Fits (fun t => (int0 t).isSome) g := by
  intro g hg
  simp only [groups, List.mem_cons, List.not_mem_nil, or_false] at hg
  rcases hg with rfl | rfl | rfl
  · exact ⟨rfl, by intro h; cases h⟩
  · exact ⟨by simp [oAcross, words], by intro h; cases h⟩
  · exact ⟨rfl, fun _ => by decide +kernel⟩

/-- the theorem applies, in both forms -/
example : taskLine int0 (words ["./my_data.item", "-o", "column1", "--acr", "column2", "column3", "--threshold=5"]) = .ok (some (taskMeaning int0 groups "./my_data.item".toList none "column1".toList)) ∧
    taskLine int0 (words ["-o", "column1", "--acr", "column2", "column3", "--threshold=5", "--", "./my_data.item"]) = .ok (some (taskMeaning int0 groups "./my_data.item".toList none "column1".toList)) :=
  C99_task groups_written groups_fit (on := "column1".toList) (by decide +kernel) (database := "./my_data.item".toList) (output := none) (by unfold Value; decide +kernel)

/-- and the call is the one that is meant -/
example : taskMeaning int0 groups "./my_data.item".toList none "column1".toList =
    ⟨"./my_data.item".toList, "column1".toList, words ["column2", "column3"], [], [], [], false, false, none, some 5, none, none⟩ := by decide +kernel

/-- the output file after columns becomes a column -/
example : taskLine int0 (words ["d.item", "-o", "c", "-a", "x", "out.abx"]) = .ok (some ⟨"d.item".toList, "c".toList, words ["x", "out.abx"], [], [], [], false, false, none, none, none, none⟩) := by decide +kernel
/-- the output file after one column is refused -/
example : taskLine int0 (words ["d.item", "-o", "c", "out.abx"]) = .error .usage := by decide +kernel
/-- the database after columns is refused -/
example : taskLine int0 (words ["-o", "c", "-a", "x", "d.item"]) = .error .usage := by decide +kernel
/-- after one column it is not -/
example : taskLine int0 (words ["-a", "x", "-o", "c", "d.item", "out.abx"]) = .ok (some ⟨"d.item".toList, "c".toList, words ["x"], [], [], [], false, false, some "out.abx".toList, none, none, none⟩) := by decide +kernel
/-- a word that is no option -/
example : Unknown taskParser "--output".toList where
  dash := rfl
  long := by decide +kernel
  dashes := by decide +kernel
  whole := by decide +kernel
  before := by
    intro a v e
    have : '=' ∈ "--output".toList := by rw [e]; simp
    exact absurd this (by decide +kernel)
  letter := by decide +kernel
  number := by decide +kernel
  blank := by decide +kernel
/-- `--t` is the beginning of `--tempdir` and of `--threshold` -/
example (a b : List Text) (ha : "--".toList ∉ a) : parse taskParser (fun _ => true) (a ++ "--t".toList :: b) = .error .usage :=
  C99_ambiguous (by decide +kernel) (by decide +kernel) (by decide +kernel) (by decide +kernel) (o := oThreshold) (o' := ⟨["--tempdir".toList], .one, "tempdir".toList, false, false⟩) (by decide +kernel) (by decide +kernel)
    (f := "--threshold".toList) (f' := "--tempdir".toList) (by decide +kernel) (by decide +kernel) (by decide +kernel) (by decide +kernel) (by decide +kernel) ha
/-- distance.py with the options among the files -/
example : distanceLine int0 (words ["f.h5", "-n", "1", "t.abx", "d.h5"]) = .ok (some (some ⟨"f.h5".toList, "t.abx".toList, "d.h5".toList, some 1, none, 1, "features".toList⟩)) ∧
    distanceLine int0 (words ["f.h5", "t.abx", "d.h5"]) = .ok (some none) := by decide +kernel
/-- `--dist` is the beginning of `--distancefile` and of `--distance`, but `--distance` is a name -/
example : runLine (words ["d.item", "--distance", "m.f", "d.features", "--name=-x", "d.conf"]) =
    .ok [("config".toList, words ["d.conf"]), ("name".toList, words ["-x"]), ("featurefile".toList, words ["d.features"]), ("distance".toList, words ["m.f"]), ("itemfile".toList, words ["d.item"])] ∧
    runLine (words ["--dist", "m.f", "a", "b", "c"]) = .error .usage := by decide +kernel
/-- a file whose name begins with '-' -/
example : analyzeLine (words ["--", "-s", "t", "r"]) = .ok (some ("t".toList, "-s".toList, "r".toList)) ∧ analyzeLine (words ["-s", "t", "r"]) = .error .usage := by decide +kernel
end Example

end ABX.Argparse
