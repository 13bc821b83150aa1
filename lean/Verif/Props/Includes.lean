import Verif.Includes
import Mathlib.Data.List.Nodup
import Mathlib.Data.List.Basic
import Mathlib.Tactic.Push
import Mathlib.Data.List.Perm.Subperm

/-!
# Theorems about configuration files that include others (C111)
-/

namespace Verif.Includes

variable {G V : Type}

/-! ### Which file a name is -/

/-- The specification: the file with this name in the first directory that has one, the directories given before the standard one. -/
def IsFirst (W : World G V) (base f : Str) : Prop :=
  ∃ before d after, W.given ++ [W.standard] = before ++ d :: after ∧ f = d ++ '/' :: base ∧ (W.file f).isSome ∧
    ∀ e ∈ before, W.file (e ++ '/' :: base) = none

theorem search_some (file : Str → Option Str) (base f : Str) : ∀ ds : List Str,
    search file base ds = some f ↔ ∃ before d after, ds = before ++ d :: after ∧ f = d ++ '/' :: base ∧ (file f).isSome ∧
      ∀ e ∈ before, file (e ++ '/' :: base) = none := by
  intro ds
  induction ds with
  | nil => simp [search]
  | cons a ds ih =>
    rw [search]
    split
    · next h =>
      constructor
      · intro he
        rw [Option.some.injEq] at he
        exact ⟨[], a, ds, rfl, he.symm, he ▸ h, by simp⟩
      · rintro ⟨before, d, after, he, rfl, h2, h3⟩
        cases before with
        | nil =>
          simp only [List.nil_append, List.cons.injEq] at he
          rw [he.1]
        | cons b bs =>
          simp only [List.cons_append, List.cons.injEq] at he
          have := h3 b (by simp)
          rw [← he.1] at this
          simp [this] at h
    · next h =>
      rw [ih]
      constructor
      · rintro ⟨before, d, after, rfl, h1, h2, h3⟩
        refine ⟨a :: before, d, after, rfl, h1, h2, ?_⟩
        intro e he
        rcases List.mem_cons.1 he with rfl | he
        · simpa using h
        · exact h3 e he
      · rintro ⟨before, d, after, he, h1, h2, h3⟩
        cases before with
        | nil =>
          simp only [List.nil_append, List.cons.injEq] at he
          rw [h1, ← he.1] at h2
          exact absurd h2 h
        | cons b bs =>
          simp only [List.cons_append, List.cons.injEq] at he
          exact ⟨bs, d, after, he.2, h1, h2, fun e he' => h3 e (by simp [he'])⟩

/-- `GetFullPathOrDie` gives the file in the first directory that has one. -/
theorem fullPath_iff (W : World G V) (base f : Str) : fullPath W base = .ok f ↔ IsFirst W base f := by
  unfold fullPath IsFirst
  rw [← search_some]
  cases search W.file base (W.given ++ [W.standard]) <;> simp

/-- It ends the process if and only if no directory has one. -/
theorem fullPath_aborts (W : World G V) (base : Str) :
    fullPath W base = .error .notFound ↔ (∀ d ∈ W.given, W.file (d ++ '/' :: base) = none) ∧ W.file (W.standard ++ '/' :: base) = none := by
  have key : ∀ ds : List Str, search W.file base ds = none ↔ ∀ d ∈ ds, W.file (d ++ '/' :: base) = none := by
    intro ds
    induction ds with
    | nil => simp [search]
    | cons a ds ih =>
      rw [search]
      split
      · next h =>
        constructor
        · intro h'; cases h'
        · intro h'
          rw [h' a (by simp)] at h
          cases h
      · next h =>
        rw [ih, List.forall_mem_cons]
        exact ⟨fun h' => ⟨by simpa using h, h'⟩, fun h' => h'.2⟩
  have := key (W.given ++ [W.standard])
  unfold fullPath
  rw [List.forall_mem_append] at this
  simp only [List.mem_singleton, forall_eq] at this
  rw [← this]
  cases search W.file base (W.given ++ [W.standard]) <;> simp

theorem isFirst_unique {W : World G V} {base f f' : Str} (h : IsFirst W base f) (h' : IsFirst W base f') : f = f' := by
  rw [← fullPath_iff] at h h'
  rw [h] at h'
  injection h'

theorem isFirst_file {W : World G V} {base f : Str} (h : IsFirst W base f) : ∃ c, W.file f = some c := by
  obtain ⟨_, _, _, _, _, h, _⟩ := h
  exact Option.isSome_iff_exists.1 h

theorem content_iff (W : World G V) (base c : Str) : content W base = .ok c ↔ base ≠ [] ∧ ∃ f, IsFirst W base f ∧ W.file f = some c := by
  unfold content
  split
  · next h => simp [h]
  · next h =>
    cases hf : fullPath W base with
    | error e =>
      simp only [reduceCtorEq, false_iff, not_and, not_exists]
      intro _ f hi
      rw [(fullPath_iff W base f).2 hi] at hf
      cases hf
    | ok f =>
      have hi := (fullPath_iff W base f).1 hf
      obtain ⟨c', hc'⟩ := isFirst_file hi
      simp only [hc', Except.ok.injEq]
      constructor
      · rintro rfl
        exact ⟨h, f, hi, hc'⟩
      · rintro ⟨_, f', hi', hc⟩
        rw [isFirst_unique hi' hi, hc'] at hc
        exact Option.some.inj hc

/-! ### What including means -/

/-- A name as Lua passes it: a string or a number, up to the first zero. -/
inductive Named : List Arg → Str → Prop where
  | str (s : Str) : Named [.str s] (cString s)
  | num (t : Str) : Named [.num t] (cString t)

/-- The specification: `include` runs the script of the file, in the same global variables, and has its values; `tr` is the list of the
files that are run, in this order. Nothing prevents a file from being run twice. -/
inductive Exec (W : World G V) : Prog G V → G → List Str → List V → G → Prop where
  | ret {vs g} : Exec W (.ret vs) g [] vs g
  | get {k g tr vs g'} : Exec W (k g) g tr vs g' → Exec W (.get k) g tr vs g'
  | put {g₀ k g tr vs g'} : Exec W k g tr vs g' → Exec W (.put g k) g₀ tr vs g'
  | read {args k g base f c tr vs g'} : Named args base → base ≠ [] → IsFirst W base f → W.file f = some c →
      Exec W (k (cString c)) g tr vs g' → Exec W (.read args k) g tr vs g'
  | incl {args k g base f c p tr₁ vs₁ g₁ tr₂ vs g₂} : Named args base → base ≠ [] → IsFirst W base f → W.file f = some c → W.parse c = some p →
      Exec W p g tr₁ vs₁ g₁ → Exec W (k vs₁) g₁ tr₂ vs g₂ → Exec W (.incl args k) g (f :: tr₁ ++ tr₂) vs g₂

theorem nameOf_iff (args : List Arg) (base : Str) : nameOf args = .ok base ↔ Named args base := by
  constructor
  · intro h
    unfold nameOf at h
    split at h
    · injection h with h; subst h; exact .str _
    · injection h with h; subst h; exact .num _
    · cases h
  · rintro (_ | _) <;> rfl

theorem readFile_iff (W : World G V) (args : List Arg) (s : Str) :
    readFile W args = .ok s ↔ ∃ base f c, Named args base ∧ base ≠ [] ∧ IsFirst W base f ∧ W.file f = some c ∧ s = cString c := by
  unfold readFile
  cases hn : nameOf args with
  | error e =>
    simp only [reduceCtorEq, false_iff, not_exists]
    rintro base f c ⟨h, -⟩
    rw [(nameOf_iff _ _).2 h] at hn
    cases hn
  | ok base =>
    dsimp only
    have hN := (nameOf_iff _ _).1 hn
    cases hc : content W base with
    | error e =>
      simp only [reduceCtorEq, false_iff, not_exists]
      rintro base' f c ⟨h, h1, h2, h3, -⟩
      rw [(nameOf_iff _ _).2 h] at hn
      injection hn with hn
      subst hn
      rw [(content_iff W base' c).2 ⟨h1, f, h2, h3⟩] at hc
      cases hc
    | ok c =>
      obtain ⟨h1, f, h2, h3⟩ := (content_iff _ _ _).1 hc
      simp only [Except.ok.injEq]
      constructor
      · rintro rfl
        exact ⟨base, f, c, hN, h1, h2, h3, rfl⟩
      · rintro ⟨base', f', c', h, _, h2', h3', rfl⟩
        rw [(nameOf_iff _ _).2 h] at hn
        injection hn with hn
        subst hn
        rw [isFirst_unique h2' h2, h3] at h3'
        rw [Option.some.inj h3']

theorem enter_iff (W : World G V) (args : List Arg) (inc inc' : List Str) (p : Prog G V) :
    enter W args inc = .ok (p, inc') ↔ ∃ base f c, Named args base ∧ base ≠ [] ∧ IsFirst W base f ∧ W.file f = some c ∧ W.parse c = some p ∧
      f ∉ inc ∧ inc' = inc ++ [f] := by
  unfold enter
  cases hn : nameOf args with
  | error e =>
    simp only [reduceCtorEq, false_iff, not_exists]
    rintro base f c ⟨h, -⟩
    rw [(nameOf_iff _ _).2 h] at hn
    cases hn
  | ok base =>
    have hN := (nameOf_iff _ _).1 hn
    have same : ∀ {base'}, Named args base' → base' = base := by
      intro base' h
      rw [(nameOf_iff _ _).2 h] at hn
      injection hn
    dsimp only
    cases hf : fullPath W base with
    | error e =>
      simp only [reduceCtorEq, false_iff, not_exists]
      rintro base' f c ⟨h, _, h2, -⟩
      rw [same h] at h2
      rw [(fullPath_iff W base f).2 h2] at hf
      cases hf
    | ok f =>
      have hF := (fullPath_iff _ _ _).1 hf
      dsimp only
      split
      · next hm =>
        simp only [reduceCtorEq, false_iff, not_exists]
        rintro base' f' c ⟨h, _, h2, _, _, h5, -⟩
        rw [same h] at h2
        rw [isFirst_unique h2 hF] at h5
        exact h5 hm
      · next hm =>
        cases hc : content W base with
        | error e =>
          simp only [reduceCtorEq, false_iff, not_exists]
          rintro base' f' c ⟨h, h1, h2, h3, -⟩
          rw [same h] at h1 h2
          rw [(content_iff W base c).2 ⟨h1, f', h2, h3⟩] at hc
          cases hc
        | ok c =>
          obtain ⟨h1, f₁, h2, h3⟩ := (content_iff _ _ _).1 hc
          obtain rfl := isFirst_unique h2 hF
          dsimp only
          cases hp : W.parse c with
          | none =>
            simp only [reduceCtorEq, false_iff, not_exists]
            rintro base' f' c' ⟨h, _, h2', h3', h4', -⟩
            rw [same h] at h2'
            rw [isFirst_unique h2' hF, h3] at h3'
            rw [← Option.some.inj h3', hp] at h4'
            cases h4'
          | some q =>
            simp only [Except.ok.injEq, Prod.mk.injEq]
            constructor
            · rintro ⟨rfl, rfl⟩
              exact ⟨base, _, c, hN, h1, hF, h3, hp, hm, rfl⟩
            · rintro ⟨base', f', c', h, _, h2', h3', h4', _, rfl⟩
              rw [same h] at h2'
              obtain rfl := isFirst_unique h2' hF
              rw [h3] at h3'
              rw [← Option.some.inj h3', hp] at h4'
              exact ⟨Option.some.inj h4', rfl⟩

/-- What the code does is what the specification says, if no file is run twice and the nesting suffices. -/
theorem run_sound (W : World G V) : ∀ (d : Nat) (p : Prog G V) (inc : List Str) (g : G) (vs : List V) (inc' : List Str) (g' : G),
    run W d p inc g = .ok (vs, inc', g') → ∃ tr, Exec W p g tr vs g' ∧ inc' = inc ++ tr ∧ tr.Nodup ∧ ∀ f ∈ tr, f ∉ inc := by
  have step : ∀ (nested : Prog G V → List Str → G → Except Abort (List V × List Str × G)),
      (∀ p inc g vs inc' g', nested p inc g = .ok (vs, inc', g') → ∃ tr, Exec W p g tr vs g' ∧ inc' = inc ++ tr ∧ tr.Nodup ∧ ∀ f ∈ tr, f ∉ inc) →
      ∀ (p : Prog G V) (inc : List Str) (g : G) (vs : List V) (inc' : List Str) (g' : G),
        runWith W nested p inc g = .ok (vs, inc', g') → ∃ tr, Exec W p g tr vs g' ∧ inc' = inc ++ tr ∧ tr.Nodup ∧ ∀ f ∈ tr, f ∉ inc := by
    intro nested hn p
    induction p with
    | ret vs₀ =>
      intro inc g vs inc' g' h
      simp only [runWith, Except.ok.injEq, Prod.mk.injEq] at h
      obtain ⟨rfl, rfl, rfl⟩ := h
      exact ⟨[], .ret, by simp, List.nodup_nil, by simp⟩
    | error => intro inc g vs inc' g' h; simp [runWith] at h
    | get k ih =>
      intro inc g vs inc' g' h
      rw [runWith] at h
      obtain ⟨tr, h1, h2⟩ := ih g inc g vs inc' g' h
      exact ⟨tr, .get h1, h2⟩
    | put g₀ k ih =>
      intro inc g vs inc' g' h
      rw [runWith] at h
      obtain ⟨tr, h1, h2⟩ := ih inc g₀ vs inc' g' h
      exact ⟨tr, .put h1, h2⟩
    | read args k ih =>
      intro inc g vs inc' g' h
      rw [runWith] at h
      cases hr : readFile W args with
      | error e => rw [hr] at h; cases h
      | ok s =>
        rw [hr] at h
        obtain ⟨base, f, c, n1, n2, n3, n4, rfl⟩ := (readFile_iff _ _ _).1 hr
        obtain ⟨tr, h1, h2⟩ := ih _ inc g vs inc' g' h
        exact ⟨tr, .read n1 n2 n3 n4 h1, h2⟩
    | incl args k ih =>
      intro inc g vs inc' g' h
      rw [runWith] at h
      cases he : enter W args inc with
      | error e => rw [he] at h; cases h
      | ok r =>
        obtain ⟨p, inc₁⟩ := r
        rw [he] at h
        dsimp only at h
        obtain ⟨base, f, c, n1, n2, n3, n4, n5, n6, rfl⟩ := (enter_iff _ _ _ _ _).1 he
        cases hp : nested p (inc ++ [f]) g with
        | error e => rw [hp] at h; cases h
        | ok r =>
          obtain ⟨vs₁, inc₂, g₁⟩ := r
          rw [hp] at h
          dsimp only at h
          obtain ⟨tr₁, e1, rfl, d1, f1⟩ := hn _ _ _ _ _ _ hp
          obtain ⟨tr₂, e2, rfl, d2, f2⟩ := ih _ _ _ _ _ _ h
          refine ⟨f :: tr₁ ++ tr₂, .incl n1 n2 n3 n4 n5 e1 e2, by simp, ?_, ?_⟩
          · rw [List.cons_append, List.nodup_cons, List.nodup_append]
            refine ⟨?_, d1, d2, ?_⟩
            · rw [List.mem_append]
              rintro (hm | hm)
              · exact f1 f hm (by simp)
              · exact f2 f hm (by simp)
            · rintro a ha b hb rfl
              exact f2 a hb (by simp [ha])
          · intro a ha
            rw [List.cons_append, List.mem_cons, List.mem_append] at ha
            rcases ha with rfl | ha | ha
            · exact n6
            · intro hm; exact f1 a ha (by simp [hm])
            · intro hm; exact f2 a ha (by simp [hm])
  intro d
  induction d with
  | zero => exact step _ (by intro p inc g vs inc' g' h; cases h)
  | succ d ih => exact step _ ih

theorem run_complete (W : World G V) {p : Prog G V} {g : G} {tr : List Str} {vs : List V} {g' : G} (h : Exec W p g tr vs g') :
    ∀ (inc : List Str), tr.Nodup → (∀ f ∈ tr, f ∉ inc) → ∀ d, tr.length ≤ d → run W d p inc g = .ok (vs, inc ++ tr, g') := by
  have unf : ∀ d (p : Prog G V) inc g, ∃ nested, run W d p inc g = runWith W nested p inc g ∧
      (∀ q inc g, run W d q inc g = runWith W nested q inc g) ∧ (∀ e, d = e + 1 → nested = run W e) := by
    intro d p inc g
    cases d with
    | zero => exact ⟨_, rfl, fun _ _ _ => rfl, fun e he => absurd he (by omega)⟩
    | succ d =>
      refine ⟨run W d, rfl, fun _ _ _ => rfl, ?_⟩
      intro e he
      obtain rfl : d = e := by omega
      rfl
  induction h with
  | ret =>
    intro inc _ _ d _
    obtain ⟨nested, e, -, -⟩ := unf d (.ret _) inc _
    rw [e, runWith, List.append_nil]
  | get _ ih =>
    intro inc h1 h2 d hd
    obtain ⟨nested, e, e2, -⟩ := unf d (.get _) inc _
    rw [e, runWith, ← e2]
    exact ih inc h1 h2 d hd
  | put _ ih =>
    intro inc h1 h2 d hd
    obtain ⟨nested, e, e2, -⟩ := unf d (.put _ _) inc _
    rw [e, runWith, ← e2]
    exact ih inc h1 h2 d hd
  | read n1 n2 n3 n4 _ ih =>
    intro inc h1 h2 d hd
    obtain ⟨nested, e, e2, -⟩ := unf d (.read _ _) inc _
    rw [e, runWith, (readFile_iff _ _ _).2 ⟨_, _, _, n1, n2, n3, n4, rfl⟩]
    dsimp only
    rw [← e2]
    exact ih inc h1 h2 d hd
  | @incl args k g base f c p tr₁ vs₁ g₁ tr₂ vs g₂ n1 n2 n3 n4 n5 _ _ ih1 ih2 =>
    intro inc h1 h2 d hd
    rw [List.cons_append, List.nodup_cons, List.nodup_append] at h1
    obtain ⟨a1, a2, a3, a4⟩ := h1
    simp only [List.cons_append, List.length_cons, List.length_append] at hd
    obtain ⟨nested, e, e2, e3⟩ := unf d (.incl args k) inc g
    obtain ⟨d', rfl⟩ : ∃ d', d = d' + 1 := ⟨d - 1, by omega⟩
    rw [e, runWith, (enter_iff _ _ _ _ _).2 ⟨base, f, c, n1, n2, n3, n4, n5, h2 f (by simp), rfl⟩]
    dsimp only
    rw [e3 d' rfl, ih1 (inc ++ [f]) a2 ?_ d' (by omega)]
    · dsimp only
      rw [← e3 d' rfl, ← e2, ih2 (inc ++ [f] ++ tr₁) a3 ?_ (d' + 1) (by omega)]
      · simp
      · intro b hb hm
        simp only [List.mem_append, List.mem_singleton] at hm
        rcases hm with (hm | rfl) | hm
        · exact h2 b (by simp [hb]) hm
        · exact a1 (by simp [hb])
        · exact a4 b hm b hb rfl
    · intro b hb hm
      simp only [List.mem_append, List.mem_singleton] at hm
      rcases hm with hm | rfl
      · exact h2 b (by simp [hb]) hm
      · exact a1 (by simp [hb])

/-- A configuration is read, given enough nesting, if and only if running its files as they include each other runs no file twice. Then
`included_files_` are exactly the files that are run, in this order. -/
theorem run_iff (W : World G V) (p : Prog G V) (g : G) (vs : List V) (files : List Str) (g' : G) :
    (∃ d, run W d p [] g = .ok (vs, files, g')) ↔ Exec W p g files vs g' ∧ files.Nodup := by
  constructor
  · rintro ⟨d, h⟩
    obtain ⟨tr, h1, h2, h3, -⟩ := run_sound W d p [] g vs files g' h
    rw [List.nil_append] at h2
    subst h2
    exact ⟨h1, h3⟩
  · rintro ⟨h1, h2⟩
    exact ⟨_, run_complete W h1 [] h2 (by simp) files.length (Nat.le_refl _)⟩

/-- Every file that is run is one of a directory of the resolver that can be opened. -/
theorem exec_files {W : World G V} {p : Prog G V} {g : G} {tr : List Str} {vs : List V} {g' : G} (h : Exec W p g tr vs g') :
    ∀ f ∈ tr, (W.file f).isSome ∧ ∃ d base, (d ∈ W.given ∨ d = W.standard) ∧ f = d ++ '/' :: base := by
  induction h with
  | ret => simp
  | get _ ih => exact ih
  | put _ ih => exact ih
  | read _ _ _ _ _ ih => exact ih
  | incl _ _ n3 _ _ _ _ ih1 ih2 =>
    intro f hf
    rw [List.cons_append, List.mem_cons, List.mem_append] at hf
    rcases hf with rfl | hf | hf
    · obtain ⟨before, d, after, e1, e2, e3, -⟩ := n3
      refine ⟨e3, d, _, ?_, e2⟩
      have : d ∈ W.given ++ [W.standard] := by rw [e1]; simp
      simpa using this
    · exact ih1 f hf
    · exact ih2 f hf

/-! ### Reading ends -/

/-- If only finitely many names can be opened, the nesting is at most their number: the limit of Lua does not matter, and reading a
configuration always ends, successfully or not. -/
theorem nesting_bounded (W : World G V) (F : List Str) (hF : ∀ f, (W.file f).isSome → f ∈ F) :
    ∀ (d : Nat) (p : Prog G V) (inc : List Str) (g : G), inc.Nodup → (∀ f ∈ inc, f ∈ F) → F.length < d + 1 + inc.length →
      run W d p inc g ≠ .error .tooDeep ∧ run W d p inc g = run W (d + 1) p inc g := by
  have hname : ∀ args e, nameOf args = .error e → e = .badArguments := by
    intro args e h
    unfold nameOf at h
    split at h <;> simp_all
  have hpath : ∀ base e, fullPath W base = .error e → e = .notFound := by
    intro base e h
    unfold fullPath at h
    split at h <;> simp_all
  have hcont : ∀ base e, content W base = .error e → e ≠ .tooDeep := by
    intro base e h
    unfold content at h
    split at h
    · injection h with h; subst h; decide
    · split at h
      · next e' he =>
        injection h with h
        subst h
        rw [hpath _ _ he]
        decide
      · split at h <;> cases h
  have hread : ∀ args e, readFile W args = .error e → e ≠ .tooDeep := by
    intro args e h
    unfold readFile at h
    split at h
    · next e' he => injection h with h; subst h; rw [hname _ _ he]; decide
    · split at h
      · next e' he => injection h with h; subst h; exact hcont _ _ he
      · cases h
  have henter : ∀ args inc e, enter W args inc = .error e → e ≠ .tooDeep := by
    intro args inc e h
    unfold enter at h
    split at h
    · next e' he => injection h with h; subst h; rw [hname _ _ he]; decide
    · split at h
      · next e' he => injection h with h; subst h; rw [hpath _ _ he]; decide
      · split at h
        · injection h with h; subst h; decide
        · split at h
          · next e' he => injection h with h; subst h; exact hcont _ _ he
          · split at h
            · injection h with h; subst h; decide
            · cases h
  have step : ∀ (d : Nat) (n n' : Prog G V → List Str → G → Except Abort (List V × List Str × G)),
      (∀ p inc g vs inc' g', inc.Nodup → (∀ f ∈ inc, f ∈ F) → n p inc g = .ok (vs, inc', g') → inc'.Nodup ∧ (∀ f ∈ inc', f ∈ F) ∧ inc.length ≤ inc'.length) →
      (∀ p inc g, inc.Nodup → (∀ f ∈ inc, f ∈ F) → F.length < d + inc.length → n p inc g ≠ .error .tooDeep ∧ n p inc g = n' p inc g) →
      ∀ (p : Prog G V) (inc : List Str) (g : G), inc.Nodup → (∀ f ∈ inc, f ∈ F) → F.length < d + 1 + inc.length →
        runWith W n p inc g ≠ .error .tooDeep ∧ runWith W n p inc g = runWith W n' p inc g := by
    intro d n n' hok hn p
    induction p with
    | ret vs => intro inc g _ _ _; simp [runWith]
    | error => intro inc g _ _ _; simp [runWith]
    | get k ih => intro inc g h1 h2 h3; rw [runWith, runWith]; exact ih g inc g h1 h2 h3
    | put g₀ k ih => intro inc g h1 h2 h3; rw [runWith, runWith]; exact ih inc g₀ h1 h2 h3
    | read args k ih =>
      intro inc g h1 h2 h3
      rw [runWith, runWith]
      cases hr : readFile W args with
      | error e =>
        refine ⟨?_, rfl⟩
        intro h
        injection h with h
        exact hread _ _ hr h
      | ok s => exact ih s inc g h1 h2 h3
    | incl args k ih =>
      intro inc g h1 h2 h3
      rw [runWith, runWith]
      cases he : enter W args inc with
      | error e =>
        refine ⟨?_, rfl⟩
        intro h
        injection h with h
        exact henter _ _ _ he h
      | ok r =>
        obtain ⟨p, inc₁⟩ := r
        obtain ⟨base, f, c, _, _, _, n4, _, n6, rfl⟩ := (enter_iff _ _ _ _ _).1 he
        dsimp only
        have b1 : (inc ++ [f]).Nodup := by
          rw [List.nodup_append]
          exact ⟨h1, by simp, by rintro a ha b hb rfl; simp only [List.mem_singleton] at hb; subst hb; exact n6 ha⟩
        have b2 : ∀ a ∈ inc ++ [f], a ∈ F := by
          intro a ha
          rcases List.mem_append.1 ha with ha | ha
          · exact h2 a ha
          · simp only [List.mem_singleton] at ha
            subst ha
            exact hF a (by rw [n4]; rfl)
        obtain ⟨c1, c2⟩ := hn p (inc ++ [f]) g b1 b2 (by simp only [List.length_append, List.length_singleton]; omega)
        rw [← c2]
        cases hp : n p (inc ++ [f]) g with
        | error e =>
          refine ⟨?_, rfl⟩
          intro h
          injection h with h
          subst h
          exact c1 hp
        | ok r =>
          obtain ⟨vs₁, inc₂, g₁⟩ := r
          obtain ⟨q1, q2, q3⟩ := hok _ _ _ _ _ _ b1 b2 hp
          dsimp only
          refine ih vs₁ inc₂ g₁ q1 q2 ?_
          simp only [List.length_append, List.length_singleton] at q3
          omega
  intro d
  induction d with
  | zero =>
    refine step 0 _ _ (by intro p inc g vs inc' g' _ _ h; cases h) ?_
    intro p inc g h1 h2 h3
    exfalso
    have := (List.subperm_of_subset h1 h2).length_le
    omega
  | succ d ih =>
    refine step (d + 1) _ _ ?_ ih
    intro p inc g vs inc' g' h1 h2 h
    obtain ⟨tr, e1, rfl, e3, e4⟩ := run_sound W d p inc g vs inc' g' h
    refine ⟨?_, ?_, by simp⟩
    · rw [List.nodup_append]
      exact ⟨h1, e3, by rintro a ha b hb rfl; exact e4 a hb ha⟩
    · intro f hf
      rcases List.mem_append.1 hf with hf | hf
      · exact h2 f hf
      · exact hF f (exec_files e1 f hf).1

/-- With as many levels as there are names the result is final: it is not that of the limit, and more levels give the same. -/
theorem reading_ends (W : World G V) (F : List Str) (hF : ∀ f, (W.file f).isSome → f ∈ F) (p : Prog G V) (g : G) :
    run W F.length p [] g ≠ .error .tooDeep ∧ ∀ d, F.length ≤ d → run W d p [] g = run W F.length p [] g := by
  refine ⟨(nesting_bounded W F hF F.length p [] g List.nodup_nil (by simp) (by simp)).1, ?_⟩
  intro d hd
  induction hd with
  | refl => rfl
  | @step d hd ih => rw [← (nesting_bounded W F hF d p [] g List.nodup_nil (by simp) (by simp only [List.length_nil]; simp only [Nat.le_eq] at hd; omega)).2, ih]

/-! ### What the main file is -/

/-- The dictionary of a main file: its code up to the first zero is run, the first value is the table. -/
theorem load_iff (W : World G V) (isTable : V → Bool) (code : Str) (g : G) (v : V) (files : List Str) :
    (∃ d, load W isTable d code g = .ok (v, files)) ↔
      isTable v = true ∧ ∃ p vs g', W.parse (cString code) = some p ∧ Exec W p g files (v :: vs) g' ∧ files.Nodup := by
  unfold load
  cases hp : W.parse (cString code) with
  | none => simp
  | some p =>
    dsimp only
    constructor
    · rintro ⟨d, h⟩
      cases hr : run W d p [] g with
      | error e => rw [hr] at h; cases h
      | ok r =>
        obtain ⟨vs, inc, g'⟩ := r
        rw [hr] at h
        dsimp only at h
        cases vs with
        | nil => cases h
        | cons v' vs =>
          dsimp only at h
          split at h
          · next ht =>
            simp only [Except.ok.injEq, Prod.mk.injEq] at h
            obtain ⟨rfl, rfl⟩ := h
            have := (run_iff W p g _ _ _).1 ⟨d, hr⟩
            exact ⟨ht, p, vs, g', rfl, this⟩
          · cases h
    · rintro ⟨ht, p', vs, g', e, h1, h2⟩
      rw [Option.some.injEq] at e
      subst e
      obtain ⟨d, hd⟩ := (run_iff W p g _ _ _).2 ⟨h1, h2⟩
      refine ⟨d, ?_⟩
      rw [hd]
      dsimp only
      rw [if_pos ht]

/-! ### What the check does not prevent -/

/-- One directory `s` in which `x` and `main` are, and `x` also as `./x`. `x` counts how often it is run; `main` includes itself the first time. -/
def sample : World Nat Nat where
  given := []
  standard := ['s']
  file f := if f = "s/x".toList ∨ f = "s/./x".toList then some "X".toList else if f = "s/main".toList then some "M".toList else none
  parse c :=
    if c = "X".toList then some (.get fun n => .put (n + 1) (.ret [n]))
    else if c = "M".toList then some (.get fun n => .put (n + 1) (if n = 0 then .incl [.str "main".toList] fun _ => .ret [7] else .ret [8]))
    else if c = "twice".toList then some (.incl [.str "x".toList] fun _ => .incl [.str "x".toList] fun _ => .ret [])
    else if c = "alias".toList then some (.incl [.str "x".toList] fun _ => .incl [.str "./x".toList] fun vs => .ret vs)
    else none

/-- A file is not run twice under the same name. -/
theorem same_name : ∀ d, load sample (fun _ => true) (d + 1) "twice".toList 0 = .error .twice := by
  intro d
  cases d <;> rfl

/-- It is run twice under two names. -/
theorem two_names : load sample (fun _ => true) 1 "alias".toList 0 = .ok (1, ["s/x".toList, "s/./x".toList]) := by decide +kernel

/-- The main file is not among the included ones: it can include itself once, and is then run twice. -/
theorem main_again : load sample (fun _ => true) 1 "M".toList 0 = .ok (7, ["s/main".toList]) := by decide +kernel

/-- All names lead to the same file, which includes a new name whenever it is run. -/
def endless : World Str Nat where
  given := []
  standard := ['s']
  file _ := some []
  parse _ := some (.get fun g => .put ('.' :: '/' :: g) (.incl [.str g] fun _ => .ret []))

/-- The `k`-th name: `x` with `./` in front `k` times. -/
def longName : Nat → Str
  | 0 => ['x']
  | k + 1 => '.' :: '/' :: longName k

theorem longName_length (k : Nat) : (longName k).length = 2 * k + 1 := by
  induction k with
  | zero => rfl
  | succ k ih => simp only [longName, List.length_cons, ih]; omega

theorem longName_cString (k : Nat) : cString (longName k) = longName k := by
  induction k with
  | zero => decide
  | succ k ih =>
    unfold cString at ih ⊢
    rw [longName, List.takeWhile_cons_of_pos (by decide), List.takeWhile_cons_of_pos (by decide), ih]

theorem endless_enter (k : Nat) {inc : List Str} (h : ∀ f ∈ inc, f.length < 2 * k + 3) :
    enter endless [.str (longName k)] inc = .ok ((.get fun g => .put ('.' :: '/' :: g) (.incl [.str g] fun _ => .ret [])), inc ++ ['s' :: '/' :: longName k]) := by
  rw [enter_iff]
  refine ⟨longName k, 's' :: '/' :: longName k, [], ?_, ?_, ⟨[], ['s'], [], rfl, rfl, rfl, by simp⟩, rfl, rfl, ?_, rfl⟩
  · have := Named.str (longName k)
    rwa [longName_cString] at this
  · intro h0
    have := longName_length k
    rw [h0] at this
    simp at this
  · intro hm
    have := h _ hm
    simp only [List.length_cons, longName_length] at this
    omega

/-- With infinitely many names only the limit of Lua ends the reading. -/
theorem endless_inclusion : ∀ (d k : Nat) (inc : List Str), (∀ f ∈ inc, f.length < 2 * k + 3) →
    run endless d (.get fun g => .put ('.' :: '/' :: g) (.incl [.str g] fun _ => .ret [])) inc (longName k) = .error .tooDeep := by
  intro d
  induction d with
  | zero =>
    intro k inc hinc
    rw [run, runWith, runWith, runWith, endless_enter k hinc]
  | succ d ih =>
    intro k inc hinc
    rw [run, runWith, runWith, runWith, endless_enter k hinc]
    dsimp only
    have := ih (k + 1) (inc ++ ['s' :: '/' :: longName k]) (by
      intro f hf
      rcases List.mem_append.1 hf with hf | hf
      · have := hinc f hf; omega
      · simp only [List.mem_singleton] at hf
        subst hf
        simp only [List.length_cons, longName_length]
        omega)
    rw [longName] at this
    rw [this]

/-! ### Examples -/

/-- Two directories; `a` is in both, the one given first counts. A number is a name, what follows a zero is not read. -/
def demo : World Nat Nat where
  given := ["u".toList]
  standard := "s".toList
  file f :=
    if f = "u/a".toList then some "A".toList else if f = "s/a".toList then some "B".toList else if f = "s/5".toList then some ['t', Char.ofNat 0, 'z'] else none
  parse c := if c = "A".toList then some (.ret [1, 2]) else if c = "B".toList then some (.ret [3]) else none

example : run demo 3 (.incl [.str ['a', Char.ofNat 0, 'b']] fun vs => .ret vs) [] 0 = .ok ([1, 2], ["u/a".toList], 0) := by decide +kernel

example : run demo 3 (.read [.num "5".toList] fun s => .ret [s.length]) [] 0 = .ok ([1], [], 0) := by decide +kernel

example : run demo 3 (.incl [.str "c".toList] fun vs => .ret vs) [] 0 = .error .notFound := by decide +kernel

example : run demo 3 (.incl [.str "5".toList] fun vs => .ret vs) [] 0 = .error .luaError := by decide +kernel

example : run demo 3 (.incl [.str "a".toList, .other] fun vs => .ret vs) [] 0 = .error .badArguments := by decide +kernel

example : IsFirst demo "a".toList "u/a".toList := (fullPath_iff _ _ _).1 (by decide +kernel)

end Verif.Includes
