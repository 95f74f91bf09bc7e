import Verif.Model.Logging
import Verif.Lemmas.Basic

/-!
# Logging (C61)
-/

namespace Dorado

/-! ## Vocabulary -/

/-- The names of levels and their numbers, as documented for the standard library. -/
def levelTable : List (String × Int) :=
  [("CRITICAL", 50), ("FATAL", 50), ("ERROR", 40), ("WARNING", 30), ("WARN", 30), ("INFO", 20), ("DEBUG", 10), ("NOTSET", 0)]

/-- `level` names the level `n`, in upper or lower case. -/
def NamesLevel (level : LevelArg) (n : Int) : Prop := ∃ s, level = .str s ∧ (s.toUpper, n) ∈ levelTable

/-- The call changes the level, to `n`. -/
def Sets : LogCall → Int → Prop
  | .setup l _, n => NamesLevel l n
  | .verbose v, n => v = some true ∧ n = 20 ∨ v = some false ∧ n = 40
  | _, _ => False

/-- The level expected after some calls: that of the last call that sets one, 0 at import. -/
inductive LastLevel : List LogCall → Int → Prop
  | start : LastLevel [] 0
  | sets {calls c n m} : LastLevel calls m → Sets c n → LastLevel (calls ++ [c]) n
  | keeps {calls c m} : LastLevel calls m → (∀ n, ¬ Sets c n) → LastLevel (calls ++ [c]) m

/-! ## Proofs -/

theorem levelTable_attr {s : String} {n : Int} : (s, n) ∈ levelTable ↔ loggingAttr s = some (.int n) := by
  constructor
  · intro h
    simp only [levelTable, List.mem_cons, Prod.mk.injEq, List.not_mem_nil, or_false] at h
    rcases h with ⟨rfl, rfl⟩ | ⟨rfl, rfl⟩ | ⟨rfl, rfl⟩ | ⟨rfl, rfl⟩ | ⟨rfl, rfl⟩ | ⟨rfl, rfl⟩ | ⟨rfl, rfl⟩ | ⟨rfl, rfl⟩ <;> rfl
  · intro h
    unfold loggingAttr at h
    split at h <;> first | (cases h; decide) | exact absurd h (by simp)

theorem setupLogging_eq (s : LogState) (l : LevelArg) (h : Option LogHandler) :
    (∃ n, NamesLevel l n ∧ setupLogging s l h = (ensureHandler { s with level := n } h, .ok ())) ∨
    (∀ n, ¬ NamesLevel l n) ∧ ∃ e, setupLogging s l h = (s, .error e) := by
  cases l with
  | str t =>
    cases ha : loggingAttr t.toUpper with
    | none =>
      right
      refine ⟨?_, .valueError, by simp [setupLogging, numericLevel, ha]⟩
      rintro n ⟨t', ht, hm⟩
      cases ht
      rw [levelTable_attr, ha] at hm
      cases hm
    | some a =>
      cases a with
      | int n =>
        left
        exact ⟨n, ⟨t, rfl, levelTable_attr.2 ha⟩, by simp [setupLogging, numericLevel, ha, checkLevel]⟩
      | str =>
        right
        refine ⟨?_, .valueError, by simp [setupLogging, numericLevel, ha, checkLevel]⟩
        rintro n ⟨t', ht, hm⟩
        cases ht
        rw [levelTable_attr, ha] at hm
        cases hm
      | other =>
        right
        refine ⟨?_, .typeError, by simp [setupLogging, numericLevel, ha, checkLevel]⟩
        rintro n ⟨t', ht, hm⟩
        cases ht
        rw [levelTable_attr, ha] at hm
        cases hm
  | bytes t => exact Or.inr ⟨by (rintro n ⟨t', ht, -⟩; cases ht), .typeError, rfl⟩
  | other => exact Or.inr ⟨by (rintro n ⟨t', ht, -⟩; cases ht), .valueError, rfl⟩

theorem namesLevel_unique {l : LevelArg} {n m : Int} (h1 : NamesLevel l n) (h2 : NamesLevel l m) : n = m := by
  obtain ⟨s, rfl, h1⟩ := h1
  obtain ⟨t, ht, h2⟩ := h2
  cases ht
  rw [levelTable_attr] at h1 h2
  rw [h1] at h2
  simpa using h2

theorem ensureHandler_level (s : LogState) (h : Option LogHandler) : (ensureHandler s h).level = s.level := by
  unfold ensureHandler
  split <;> rfl

/-- C61: after any sequence of calls the level is that of the last call with a valid level (`INFO` and `ERROR` for a true and a false `verbose`). -/
theorem C61_level (calls : List LogCall) : LastLevel calls (logRun calls).level := by
  induction calls using List.reverseRecOn with
  | nil => exact .start
  | append_singleton calls c ih =>
    have hr : (logRun (calls ++ [c])) = (logStep (logRun calls) c).1 := by simp [logRun]
    rw [hr]
    generalize logRun calls = s at ih
    cases c with
    | setup l h =>
      rcases setupLogging_eq s l h with ⟨n, hn, he⟩ | ⟨hn, e, he⟩
      · simp only [logStep, he, ensureHandler_level]
        exact .sets ih hn
      · simp only [logStep, he]
        exact .keeps ih hn
    | verbose v =>
      match v with
      | none => exact .keeps ih (by rintro n (⟨h, -⟩ | ⟨h, -⟩) <;> cases h)
      | some true =>
        refine .sets ih ?_
        have : (logStep s (.verbose (some true))).1.level = 20 := by
          show (setupLogging s (.str "INFO") none).1.level = 20
          rcases setupLogging_eq s (.str "INFO") none with ⟨n, hn, he⟩ | ⟨hn, -⟩
          · rw [he, ensureHandler_level]
            exact namesLevel_unique hn ⟨"INFO", rfl, by decide +kernel⟩
          · exact absurd ⟨"INFO", rfl, by decide +kernel⟩ (hn 20)
        rw [this]
        exact Or.inl ⟨rfl, rfl⟩
      | some false =>
        refine .sets ih ?_
        have : (logStep s (.verbose (some false))).1.level = 40 := by
          show (setupLogging s (.str "ERROR") none).1.level = 40
          rcases setupLogging_eq s (.str "ERROR") none with ⟨n, hn, he⟩ | ⟨hn, -⟩
          · rw [he, ensureHandler_level]
            exact namesLevel_unique hn ⟨"ERROR", rfl, by decide +kernel⟩
          · exact absurd ⟨"ERROR", rfl, by decide +kernel⟩ (hn 40)
        rw [this]
        exact Or.inr ⟨rfl, rfl⟩
    | userAdd n =>
      have : (logStep s (.userAdd n)).1.level = s.level := by simp only [logStep]; split <;> rfl
      rw [this]
      exact .keeps ih fun n h => h
    | userRemove h => exact .keeps ih fun n h => h

/-- What holds of the handlers in every reachable state. -/
structure LogInv (s : LogState) : Prop where
  one : s.added.length ≤ 1
  sub : ∀ h ∈ s.added, h ∈ s.handlers
  stream : ∀ n, LogHandler.stream n ∈ s.handlers → LogHandler.stream n ∈ s.added
  nodup : s.handlers.Nodup

theorem ensureHandler_inv {s : LogState} (hi : LogInv s) (h : Option LogHandler) : LogInv (ensureHandler s h) := by
  unfold ensureHandler
  split
  · rename_i he
    have h0 : s.handlers = [] := List.isEmpty_iff.1 he
    have h1 : s.added = [] := by
      cases ha : s.added with
      | nil => rfl
      | cons a t => exact absurd (hi.sub a (by rw [ha]; simp)) (by rw [h0]; simp)
    refine ⟨by simp [h1], by simp [h1], fun n hn => ?_, by simp⟩
    simp only [List.mem_singleton] at hn
    simp [h1, ← hn]
  · exact hi

theorem LogInv.level {s : LogState} (hi : LogInv s) (n : Int) : LogInv { s with level := n } := ⟨hi.one, hi.sub, hi.stream, hi.nodup⟩

theorem setup_inv {s : LogState} (hi : LogInv s) (l : LevelArg) (h : Option LogHandler) : LogInv (setupLogging s l h).1 := by
  rcases setupLogging_eq s l h with ⟨n, -, he⟩ | ⟨-, e, he⟩
  · rw [he]
    exact ensureHandler_inv (hi.level n) h
  · rw [he]
    exact hi

theorem logStep_inv {s : LogState} (hi : LogInv s) (c : LogCall) : LogInv (logStep s c).1 := by
  cases c with
  | setup l h => exact setup_inv hi l h
  | verbose v =>
    cases v with
    | none => exact hi
    | some b => exact setup_inv hi _ _
  | userAdd n =>
    simp only [logStep]
    split
    · exact hi
    · rename_i hn
      refine ⟨hi.one, fun h hh => List.mem_append_left _ (hi.sub h hh), fun m hm => ?_, ?_⟩
      · simp only [List.mem_append, List.mem_singleton, reduceCtorEq, or_false] at hm
        exact hi.stream m hm
      · simp only
        rw [List.nodup_append]
        refine ⟨hi.nodup, by simp, fun a ha b hb => ?_⟩
        simp only [List.mem_singleton] at hb
        subst hb
        exact fun hab => hn (hab ▸ ha)
  | userRemove h =>
    have hna : s.added.Nodup := by
      have := hi.one
      match s.added, this with
      | [], _ => simp
      | [a], _ => simp
    refine ⟨(List.length_erase_le).trans hi.one, fun a ha => ?_, fun n hn => ?_, hi.nodup.erase h⟩
    · have ha := (hna.mem_erase_iff).1 ha
      exact (hi.nodup.mem_erase_iff).2 ⟨ha.1, hi.sub a ha.2⟩
    · have hn' := (hi.nodup.mem_erase_iff).1 hn
      exact (hna.mem_erase_iff).2 ⟨hn'.1, hi.stream n hn'.2⟩

theorem logRun_inv (calls : List LogCall) : LogInv (logRun calls) := by
  induction calls using List.reverseRecOn with
  | nil => exact ⟨by simp [logRun, logInit], by simp [logRun, logInit], by simp [logRun, logInit], by simp [logRun, logInit]⟩
  | append_singleton calls c ih =>
    have hr : (logRun (calls ++ [c])) = (logStep (logRun calls) c).1 := by simp [logRun]
    rw [hr]
    exact logStep_inv ih c

/-- C61: at any time at most one of the handlers of the logger was added by dorado, and there is at most one stream handler of dorado. -/
theorem C61_one_handler (calls : List LogCall) :
    (∀ a b, a ∈ (logRun calls).added → b ∈ (logRun calls).added → a ∈ (logRun calls).handlers ∧ a = b) ∧
    (∀ m n, LogHandler.stream m ∈ (logRun calls).handlers → LogHandler.stream n ∈ (logRun calls).handlers → m = n) ∧ (logRun calls).handlers.Nodup := by
  have hi := logRun_inv calls
  have h1 : ∀ a b, a ∈ (logRun calls).added → b ∈ (logRun calls).added → a = b := by
    intro a b ha hb
    match hl : (logRun calls).added, hi.one with
    | [], _ => rw [hl] at ha; simp at ha
    | [c], _ => rw [hl] at ha hb; simp at ha hb; rw [ha, hb]
  refine ⟨fun a b ha hb => ⟨hi.sub a ha, h1 a b ha hb⟩, fun m n hm hn => ?_, hi.nodup⟩
  have := h1 _ _ (hi.stream m hm) (hi.stream n hn)
  simpa using this

/-- C61: if the user adds no handler to the logger, it never has more than one. -/
theorem C61_only_dorado (calls : List LogCall) (hc : ∀ n, LogCall.userAdd n ∉ calls) : (logRun calls).handlers.length ≤ 1 := by
  have key : (logRun calls).handlers.length ≤ 1 := by
    induction calls using List.reverseRecOn with
    | nil => simp [logRun, logInit]
    | append_singleton calls c ih =>
      have hr : (logRun (calls ++ [c])) = (logStep (logRun calls) c).1 := by simp [logRun]
      have ih := ih fun n hn => hc n (by simp [hn])
      rw [hr]
      generalize logRun calls = s at ih
      have hs : ∀ l h, (setupLogging s l h).1.handlers.length ≤ 1 := by
        intro l h
        rcases setupLogging_eq s l h with ⟨n, -, he⟩ | ⟨-, e, he⟩
        · rw [he]
          unfold ensureHandler
          split
          · simp
          · exact ih
        · rw [he]
          exact ih
      cases c with
      | setup l h => exact hs l h
      | verbose v =>
        cases v with
        | none => exact ih
        | some b => exact hs _ _
      | userAdd n => exact absurd (by simp) (hc n)
      | userRemove h => exact List.length_erase_le.trans ih
  exact key

/-- C61: a valid level sets the level and leaves the logger with a handler; handlers that were there, also the one passed along, are left alone;
the same call once more changes nothing. -/
theorem C61_idempotent (s : LogState) {l : LevelArg} {n : Int} (hl : NamesLevel l n) (h : Option LogHandler) :
    (setupLogging s l h).2 = .ok () ∧ (setupLogging s l h).1.level = n ∧ (setupLogging s l h).1.handlers ≠ [] ∧
    (s.handlers ≠ [] → (setupLogging s l h).1 = { s with level := n }) ∧
    (∀ h', setupLogging (setupLogging s l h).1 l h' = ((setupLogging s l h).1, .ok ())) := by
  have key : ∀ s' h', setupLogging s' l h' = (ensureHandler { s' with level := n } h', .ok ()) := by
    intro s' h'
    rcases setupLogging_eq s' l h' with ⟨m, hm, he⟩ | ⟨hn, -⟩
    · rw [he, namesLevel_unique hm hl]
    · exact absurd hl (hn n)
  have hne : (ensureHandler { s with level := n } h).handlers ≠ [] := by
    unfold ensureHandler
    split
    · simp
    · rename_i hh
      exact fun hc => hh (by simpa using hc)
  rw [key]
  refine ⟨rfl, ensureHandler_level _ _, hne, fun hh => ?_, fun h' => ?_⟩
  · show ensureHandler _ _ = _
    unfold ensureHandler
    rw [if_neg (by simpa using hh)]
  · rw [key]
    congr 1
    have hlv := ensureHandler_level { s with level := n } h
    generalize ensureHandler { s with level := n } h = s1 at hne hlv
    unfold ensureHandler
    rw [if_neg (by simpa using hne)]
    cases s1
    simp only at hlv
    rw [hlv]

/-- C61, invalid levels: an exception, and neither level nor handlers change; it is a ValueError unless the level is bytes or `_styles`.
Missing: these two raise TypeError, see `C61_counterexample`. -/
theorem C61_invalid_partial (s : LogState) {l : LevelArg} (hl : ∀ n, ¬ NamesLevel l n) (h : Option LogHandler) :
    (setupLogging s l h).1 = s ∧ (∃ e, (setupLogging s l h).2 = .error e) ∧
    ((∀ t, l ≠ .bytes t) → (∀ t, l = .str t → t.toUpper ≠ "_STYLES") → (setupLogging s l h).2 = .error .valueError) := by
  rcases setupLogging_eq s l h with ⟨n, hn, -⟩ | ⟨-, e, he⟩
  · exact absurd hn (hl n)
  · rw [he]
    refine ⟨rfl, ⟨e, rfl⟩, fun hb hs => ?_⟩
    have h2 : (setupLogging s l h).2 = .error e := by rw [he]
    rw [← h2]
    cases l with
    | bytes t => exact absurd rfl (hb t)
    | other => rfl
    | str t =>
      have ht := hs t rfl
      cases ha : loggingAttr t.toUpper with
      | none => simp [setupLogging, numericLevel, ha]
      | some a =>
        cases a with
        | int n => exact absurd ⟨t, rfl, levelTable_attr.2 ha⟩ (hl n)
        | str => simp [setupLogging, numericLevel, ha, checkLevel]
        | other =>
          exfalso
          generalize t.toUpper = u at ha ht
          unfold loggingAttr at ha
          split at ha <;> first | exact ht rfl | exact absurd ha (by simp)

/-- C61: `setup_logging("_styles")` and `setup_logging(b"info")` raise TypeError. -/
theorem C61_counterexample (s : LogState) : (∀ n, ¬ NamesLevel (.str "_styles") n) ∧ (setupLogging s (.str "_styles") none).2 = .error .typeError ∧
    (setupLogging s (.bytes "info") none).2 = .error .typeError := by
  have ha : loggingAttr ("_styles".toUpper) = some .other := by decide +kernel
  refine ⟨?_, by simp [setupLogging, numericLevel, ha, checkLevel], rfl⟩
  rintro n ⟨t, ht, hm⟩
  cases ht
  rw [levelTable_attr, ha] at hm
  cases hm

/-- C61: `verbose=` never raises; None changes nothing, a true value sets level 20, a false one level 40, and both leave the logger with a handler,
which is a new one only if there was none. -/
theorem C61_verbose (s : LogState) (v : Option Bool) : (handleVerbose s v).2 = .ok () ∧ (v = none → (handleVerbose s v).1 = s) ∧
    ∀ b, v = some b → (handleVerbose s v).1.level = (if b then 20 else 40) ∧ (handleVerbose s v).1.handlers ≠ [] ∧
      (s.handlers ≠ [] → (handleVerbose s v).1.handlers = s.handlers) := by
  cases v with
  | none => exact ⟨rfl, fun _ => rfl, fun b h => by cases h⟩
  | some b =>
    have hn : NamesLevel (.str (if b then "INFO" else "ERROR")) (if b then 20 else 40) := by
      cases b
      · exact ⟨"ERROR", rfl, by decide +kernel⟩
      · exact ⟨"INFO", rfl, by decide +kernel⟩
    obtain ⟨h1, h2, h3, h4, -⟩ := C61_idempotent s hn none
    refine ⟨h1, fun h => absurd h (by simp), fun b' hb => ?_⟩
    cases hb
    exact ⟨h2, h3, fun hh => by rw [show (handleVerbose s (some b)).1 = _ from h4 hh]⟩

/-! ## Cases -/

example : logRun [.verbose none, .setup (.str "debug") none, .setup (.str "LOUD") none, .userAdd 3, .setup (.str "INFO") (some (.custom 4)), .verbose (some false)] =
    { level := 40, handlers := [.stream 0, .custom 3], formatted := [.stream 0], added := [.stream 0], streams := 1 } := by decide +kernel

example : (handleVerbose logInit (some true)).1.level = 20 := ((C61_verbose logInit (some true)).2.2 true rfl).1

example : (setupLogging logInit (.str "warn") (some (.custom 1))).1.handlers ≠ [] :=
  (C61_idempotent logInit (l := .str "warn") (n := 30) ⟨"warn", rfl, by decide +kernel⟩ (some (.custom 1))).2.2.1

example : (setupLogging logInit (.str "loud") none).2 = .error .valueError :=
  (C61_invalid_partial logInit (l := .str "loud") (fun n => by
    rintro ⟨t, ht, hm⟩
    cases ht
    rw [levelTable_attr] at hm
    exact absurd hm (by rw [show loggingAttr ("loud".toUpper) = none by decide +kernel]; simp)) none).2.2 (fun t h => by cases h) (fun t h => by cases h; decide +kernel)

example : (logRun [.setup (.str "info") (some (.custom 1)), .userRemove (.custom 1), .verbose (some true)]).handlers.length ≤ 1 :=
  C61_only_dorado _ (by simp)

end Dorado
