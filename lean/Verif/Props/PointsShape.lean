import Verif.Props.PointsPipeline

/-!
# Which pipelines can finish, and after how many passes
-/

namespace Verif.Points

open Verif.Compressed Verif.Hybrid

/-- What `Flush` distinguishes. -/
inductive Kind where
  | plain
  | sink
  | outlier (p : Phase)
deriving DecidableEq

def kind : Stage → Kind
  | .outlier _ _ p _ => .outlier p
  | .xyz _ | .ply _ _ _ _ _ | .pcd _ _ _ | .grid _ _ => .sink
  | _ => .plain

def flushK : List Kind → Option (List Kind × FlushResult)
  | [] => some ([], .finished)
  | .plain :: r => (flushK r).map (fun x => (.plain :: x.1, x.2))
  | .sink :: r => match flushK r with
    | some (r', .finished) => some (.sink :: r', .finished)
    | _ => none
  | .outlier .one :: r => some (.outlier .two :: r, .restart)
  | .outlier .two :: r => some (.outlier .three :: r, .restart)
  | .outlier .three :: r => match flushK r with
    | some (r', .finished) => some (.outlier .three :: r', .finished)
    | _ => none

def isPly : Stage → Bool
  | .ply _ _ _ _ _ => true
  | _ => false

theorem stage_class (E : Env) {st st' : Stage} {b : Batch} {o : Option Batch} (h : st.process E b = some (st', o)) :
    kind st' = kind st ∧ isPly st' = isPly st := by
  cases st with
  | counting num => cases h; exact ⟨rfl, rfl⟩
  | sampling r s =>
    simp only [Stage.process, Option.bind_eq_bind, Option.bind_eq_some_iff, Option.some.injEq, Prod.mk.injEq] at h
    obtain ⟨_, _, rfl, _⟩ := h; exact ⟨rfl, rfl⟩
  | minMax lo hi =>
    simp only [Stage.process, Option.bind_eq_bind, Option.bind_eq_some_iff, Option.some.injEq, Prod.mk.injEq] at h
    obtain ⟨_, _, rfl, _⟩ := h; exact ⟨rfl, rfl⟩
  | vertical lo hi =>
    simp only [Stage.process, Option.bind_eq_bind, Option.bind_eq_some_iff, Option.some.injEq, Prod.mk.injEq] at h
    obtain ⟨_, _, rfl, _⟩ := h; exact ⟨rfl, rfl⟩
  | frameId keep drop => simp only [Stage.process] at h; split at h <;> (cases h; exact ⟨rfl, rfl⟩)
  | coloring c frame => simp only [Stage.process] at h; split at h <;> (cases h; exact ⟨rfl, rfl⟩)
  | intensity lo hi frame => simp only [Stage.process] at h; split at h <;> (cases h; exact ⟨rfl, rfl⟩)
  | outlier v l p g =>
    cases p <;> simp only [Stage.process, Option.bind_eq_bind, Option.bind_eq_some_iff, Option.some.injEq, Prod.mk.injEq] at h
    · obtain ⟨_, _, rfl, _⟩ := h; exact ⟨rfl, rfl⟩
    · obtain ⟨_, _, rfl, _⟩ := h; exact ⟨rfl, rfl⟩
    · obtain ⟨_, _, _, _, rfl, _⟩ := h; exact ⟨rfl, rfl⟩
  | xyz f =>
    simp only [Stage.process, Option.bind_eq_bind, Option.bind_eq_some_iff, Option.some.injEq, Prod.mk.injEq] at h
    obtain ⟨_, _, rfl, _⟩ := h; exact ⟨rfl, rfl⟩
  | ply cs n hc hi f =>
    simp only [Stage.process, Option.bind_eq_bind, Option.bind_eq_some_iff] at h
    split at h
    · cases h; exact ⟨rfl, rfl⟩
    · split at h <;> simp only [Option.bind_eq_some_iff] at h
      · obtain ⟨_, _, _, _, _, _, h⟩ := h
        split at h
        · cases h
        · split at h
          · cases h
          · obtain ⟨_, _, h⟩ := Option.bind_eq_some_iff.1 h
            cases h; exact ⟨rfl, rfl⟩
      · obtain ⟨_, _, _, _, h⟩ := h
        split at h
        · cases h
        · split at h
          · cases h
          · obtain ⟨_, _, h⟩ := Option.bind_eq_some_iff.1 h
            cases h; exact ⟨rfl, rfl⟩
  | pcd n hc f =>
    simp only [Stage.process, Option.bind_eq_bind, Option.bind_eq_some_iff] at h
    split at h
    · cases h; exact ⟨rfl, rfl⟩
    · split at h <;> simp only [Option.bind_eq_some_iff] at h
      · obtain ⟨_, _, _, _, _, _, h⟩ := h
        cases h; exact ⟨rfl, rfl⟩
      · obtain ⟨_, _, _, _, h⟩ := h
        cases h; exact ⟨rfl, rfl⟩
  | grid seen fl => cases h; exact ⟨rfl, rfl⟩

theorem stage_kind (E : Env) {st st' : Stage} {b : Batch} {o : Option Batch} (h : st.process E b = some (st', o)) :
    kind st' = kind st := (stage_class E h).1

theorem process_kinds (E : Env) : ∀ {ps ps' : List Stage} {b : Batch}, process E ps b = some ps' → ps'.map kind = ps.map kind
  | [], ps', b, h => by cases h; rfl
  | st :: rest, ps', b, h => by
    simp only [process, Option.bind_eq_bind, Option.bind_eq_some_iff] at h
    obtain ⟨⟨st', o⟩, h1, h2⟩ := h
    cases o with
    | none =>
      cases h2
      rw [List.map_cons, List.map_cons, stage_kind E h1]
    | some b' =>
      simp only [Option.bind_eq_some_iff] at h2
      obtain ⟨rest', h3, h4⟩ := h2
      cases h4
      rw [List.map_cons, List.map_cons, stage_kind E h1, process_kinds E h3]

theorem stream_kinds (E : Env) : ∀ {stream : List Batch} {ps ps' : List Stage}, stream.foldlM (process E) ps = some ps' →
    ps'.map kind = ps.map kind
  | [], ps, ps', h => by cases h; rfl
  | b :: stream, ps, ps', h => by
    rw [List.foldlM_cons] at h
    obtain ⟨p1, h1, h2⟩ := Option.bind_eq_some_iff.1 h
    rw [stream_kinds E h2, process_kinds E h1]

theorem flush_kinds : ∀ {ps ps' : List Stage} {r : FlushResult}, flush ps = some (ps', r) →
    flushK (ps.map kind) = some (ps'.map kind, r)
  | [], ps', r, h => by cases h; rfl
  | st :: rest, ps', r, h => by
    cases st with
    | outlier v l p g =>
      cases p
      · cases h; rfl
      · cases h; rfl
      · simp only [flush, Option.bind_eq_bind, Option.bind_eq_some_iff] at h
        obtain ⟨⟨rest', r'⟩, h1, h2⟩ := h
        have ih := flush_kinds h1
        cases r'
        · cases h2
        · cases h2; simp only [List.map_cons, kind, flushK, ih]
    | counting num =>
      simp only [flush, Option.bind_eq_bind, Option.bind_eq_some_iff] at h
      obtain ⟨⟨rest', r'⟩, h1, h2⟩ := h
      have ih := flush_kinds h1
      cases r' <;> (cases h2; simp only [List.map_cons, kind, flushK, ih, Option.map_some])
    | sampling ra s =>
      simp only [flush, Option.bind_eq_bind, Option.bind_eq_some_iff] at h
      obtain ⟨⟨rest', r'⟩, h1, h2⟩ := h
      have ih := flush_kinds h1
      cases r'
      · simp only [Option.bind_eq_some_iff] at h2
        obtain ⟨_, _, h2⟩ := h2
        cases h2; simp only [List.map_cons, kind, flushK, ih, Option.map_some]
      · cases h2; simp only [List.map_cons, kind, flushK, ih, Option.map_some]
    | xyz f =>
      simp only [flush, Option.bind_eq_bind, Option.bind_eq_some_iff] at h
      obtain ⟨⟨rest', r'⟩, h1, h2⟩ := h
      have ih := flush_kinds h1
      cases r'
      · cases h2
      · cases h2; simp only [List.map_cons, kind, flushK, ih]
    | ply cs n hc hi f =>
      simp only [flush, Option.bind_eq_bind, Option.bind_eq_some_iff] at h
      obtain ⟨_, _, _, _, ⟨rest', r'⟩, h1, h2⟩ := h
      have ih := flush_kinds h1
      cases r'
      · cases h2
      · cases h2; simp only [List.map_cons, kind, flushK, ih]
    | pcd n hc f =>
      simp only [flush, Option.bind_eq_bind, Option.bind_eq_some_iff] at h
      obtain ⟨_, _, ⟨rest', r'⟩, h1, h2⟩ := h
      have ih := flush_kinds h1
      cases r'
      · cases h2
      · cases h2; simp only [List.map_cons, kind, flushK, ih]
    | grid seen fl =>
      simp only [flush, Option.bind_eq_bind, Option.bind_eq_some_iff] at h
      obtain ⟨⟨rest', r'⟩, h1, h2⟩ := h
      have ih := flush_kinds h1
      cases r'
      · cases h2
      · cases h2; simp only [List.map_cons, kind, flushK, ih]
    | _ =>
      simp only [flush, Option.bind_eq_bind, Option.bind_eq_some_iff] at h
      obtain ⟨⟨rest', r'⟩, h1, h2⟩ := h
      have ih := flush_kinds h1
      cases h2
      simp only [List.map_cons, kind, flushK, ih, Option.map_some]

theorem pass_kinds (E : Env) {ps ps' : List Stage} {stream : List Batch} {r : FlushResult} (h : pass E ps stream = some (ps', r)) :
    flushK (ps.map kind) = some (ps'.map kind, r) := by
  simp only [pass, Option.bind_eq_bind, Option.bind_eq_some_iff] at h
  obtain ⟨p, h1, h2⟩ := h
  rw [← stream_kinds E h1]
  exact flush_kinds h2

/-- How many more passes the first outlier removal asks for. -/
def wants : List Kind → Nat
  | [] => 0
  | .outlier .one :: _ => 2
  | .outlier .two :: _ => 1
  | .outlier .three :: _ => 0
  | _ :: r => wants r

theorem flushK_restart : ∀ {ks ks' : List Kind}, flushK ks = some (ks', .restart) → wants ks = wants ks' + 1
  | [], ks', h => by cases h
  | .plain :: r, ks', h => by
    simp only [flushK, Option.map_eq_some_iff] at h
    obtain ⟨⟨r', x⟩, h1, h2⟩ := h
    cases h2
    have := flushK_restart h1
    exact this
  | .sink :: r, ks', h => by
    simp only [flushK] at h
    split at h <;> cases h
  | .outlier .one :: r, ks', h => by cases h; rfl
  | .outlier .two :: r, ks', h => by cases h; rfl
  | .outlier .three :: r, ks', h => by
    simp only [flushK] at h
    split at h <;> cases h

/-- **C67**: reading the stream comes to an end after at most three passes, for every pipeline and every stream: it finishes or
it aborts. -/
theorem drive_ends (E : Env) (stream : List Batch) : ∀ (n : Nat) (ps : List Stage), wants (ps.map kind) < n →
    drive E stream n ps ≠ .running
  | 0, ps, h => absurd h (Nat.not_lt_zero _)
  | n + 1, ps, h => by
    simp only [drive]
    split
    · exact fun h => nomatch h
    · exact fun h => nomatch h
    · rename_i ps' hp
      have := flushK_restart (pass_kinds E hp)
      exact drive_ends E stream n ps' (by omega)

theorem wants_le (ks : List Kind) : wants ks ≤ 2 := by
  induction ks with
  | nil => exact Nat.zero_le _
  | cons k ks ih => cases k with
    | outlier p => cases p <;> simp [wants]
    | _ => exact ih

theorem ends_within_three_passes (E : Env) (stream : List Batch) (ps : List Stage) : drive E stream 3 ps ≠ .running :=
  drive_ends E stream 3 ps (by have := wants_le (ps.map kind); omega)

/-- Pipelines that can be flushed successfully: the earlier stages can be restarted if needed, only the first outlier removal
has started. -/
def Shape : List Kind → Prop
  | [] => True
  | .plain :: r => Shape r
  | .sink :: r => ∀ k ∈ r, ∀ p, k ≠ .outlier p
  | .outlier _ :: r => ∀ k ∈ r, ∀ p, k ≠ .outlier p

theorem flushK_none_finished : ∀ {ks ks' : List Kind}, (∀ k ∈ ks, k ≠ .outlier .two ∧ k ≠ .outlier .three) →
    flushK ks = some (ks', .finished) → ∀ k ∈ ks, ∀ p, k ≠ .outlier p
  | [], ks', _, h => by simp
  | .plain :: r, ks', hn, h => by
    simp only [flushK, Option.map_eq_some_iff] at h
    obtain ⟨⟨r', x⟩, h1, h2⟩ := h
    cases h2
    have := flushK_none_finished (fun k hk => hn k (List.mem_cons_of_mem _ hk)) h1
    simpa using this
  | .sink :: r, ks', hn, h => by
    simp only [flushK] at h
    split at h
    · rename_i r' h1
      have := flushK_none_finished (fun k hk => hn k (List.mem_cons_of_mem _ hk)) h1
      simpa using this
    · cases h
  | .outlier .one :: r, ks', hn, h => by cases h
  | .outlier .two :: r, ks', hn, h => absurd rfl (hn _ (by simp)).1
  | .outlier .three :: r, ks', hn, h => absurd rfl (hn _ (by simp)).2

/-- Only the first outlier removal can have left the first phase, and only if no writer is before it. -/
def Fresh : List Kind → Prop
  | [] => True
  | .plain :: r => Fresh r
  | _ :: r => ∀ k ∈ r, k ≠ .outlier .two ∧ k ≠ .outlier .three

theorem flushK_shape : ∀ {ks ks' : List Kind} {x : FlushResult}, Fresh ks → flushK ks = some (ks', x) →
    (x = .finished → Shape ks) ∧ (x = .restart → Fresh ks' ∧ (Shape ks' → Shape ks))
  | [], ks', x, _, h => by cases h; exact ⟨fun _ => trivial, fun h => nomatch h⟩
  | .plain :: r, ks', x, hf, h => by
    simp only [flushK, Option.map_eq_some_iff] at h
    obtain ⟨⟨r', x⟩, h1, h2⟩ := h
    cases h2
    have := flushK_shape (ks := r) (ks' := r') hf h1
    exact this
  | .sink :: r, ks', x, hf, h => by
    simp only [flushK] at h
    split at h
    · rename_i r' h1
      cases h
      exact ⟨fun _ => flushK_none_finished hf h1, fun h => nomatch h⟩
    · cases h
  | .outlier .one :: r, ks', x, hf, h => by
    cases h
    exact ⟨(fun h => nomatch h), fun _ => ⟨hf, fun h => h⟩⟩
  | .outlier .two :: r, ks', x, hf, h => by
    cases h
    exact ⟨(fun h => nomatch h), fun _ => ⟨hf, fun h => h⟩⟩
  | .outlier .three :: r, ks', x, hf, h => by
    simp only [flushK] at h
    split at h
    · rename_i r' h1
      cases h
      exact ⟨fun _ => flushK_none_finished hf h1, fun h => nomatch h⟩
    · cases h

theorem drive_shape (E : Env) (stream : List Batch) : ∀ (n : Nat) (ps ps' : List Stage), Fresh (ps.map kind) →
    drive E stream n ps = .finished ps' → Shape (ps.map kind)
  | 0, ps, ps', _, h => by cases h
  | n + 1, ps, ps', hf, h => by
    simp only [drive] at h
    split at h
    · cases h
    · rename_i hp
      exact (flushK_shape hf (pass_kinds E hp)).1 rfl
    · rename_i p hp
      obtain ⟨h1, h2⟩ := (flushK_shape hf (pass_kinds E hp)).2 rfl
      exact h2 (drive_shape E stream n p ps' h1 h)

theorem create_kind {c : Config} {st : Stage} (h : create c = some st) :
    kind st ≠ .outlier .two ∧ kind st ≠ .outlier .three ∧ (IsOutlier c ↔ kind st = .outlier .one) ∧
      (Restartable c ↔ kind st = .plain) := by
  cases c with
  | sampling r =>
    simp only [create] at h
    split at h
    · obtain ⟨_, _, rfl⟩ := Option.map_eq_some_iff.1 h
      simp [kind, IsOutlier, Restartable]
    · cases h
  | frameId keep drop =>
    simp only [create] at h
    split at h
    · cases h
    · cases h
      simp [kind, IsOutlier, Restartable]
  | _ => cases h; simp [kind, IsOutlier, Restartable]

theorem createAll_kinds : ∀ {cs : List Config} {ps : List Stage}, createAll cs = some ps →
    (∀ k ∈ ps.map kind, k ≠ .outlier .two ∧ k ≠ .outlier .three) ∧
    ((∀ k ∈ ps.map kind, ∀ p, k ≠ .outlier p) → ∀ c ∈ cs, ¬ IsOutlier c) ∧
    (Shape (ps.map kind) → (∀ c ∈ cs, ¬ IsOutlier c) ∨
      ∃ pre v l post, cs = pre ++ .outlier v l :: post ∧ (∀ c ∈ pre, Restartable c) ∧ ∀ c ∈ post, ¬ IsOutlier c)
  | [], ps, h => by
    simp only [createAll, List.mapM_nil] at h
    cases h
    exact ⟨by simp, by simp, fun _ => .inl (by simp)⟩
  | c :: cs, ps, h => by
    simp only [createAll, List.mapM_cons, Option.bind_eq_bind, Option.bind_eq_some_iff] at h
    obtain ⟨st, h1, rest, h2, h3⟩ := h
    cases h3
    obtain ⟨i1, i2, i3⟩ := createAll_kinds h2
    obtain ⟨k1, k2, k3, k4⟩ := create_kind h1
    refine ⟨?_, ?_, ?_⟩
    · simp only [List.map_cons, List.mem_cons, forall_eq_or_imp]
      exact ⟨⟨k1, k2⟩, i1⟩
    · simp only [List.map_cons, List.mem_cons, forall_eq_or_imp]
      exact fun hk => ⟨fun ho => hk.1 _ (k3.1 ho), i2 hk.2⟩
    · simp only [List.map_cons]
      intro hs
      cases hk : kind st with
      | plain =>
        rw [hk] at hs
        rcases i3 hs with hno | ⟨pre, v, l, post, rfl, e1, e2⟩
        · left
          simp only [List.mem_cons, forall_eq_or_imp]
          exact ⟨(fun ho => by rw [k3.1 ho] at hk; cases hk), hno⟩
        · right
          refine ⟨c :: pre, v, l, post, rfl, ?_, e2⟩
          simp only [List.mem_cons, forall_eq_or_imp]
          exact ⟨k4.2 hk, e1⟩
      | sink =>
        rw [hk] at hs
        left
        simp only [List.mem_cons, forall_eq_or_imp]
        exact ⟨(fun ho => by rw [k3.1 ho] at hk; cases hk), i2 hs⟩
      | outlier p =>
        rw [hk] at hs
        have ho : IsOutlier c := by
          cases p
          · exact k3.2 hk
          · exact absurd hk k1
          · exact absurd hk k2
        right
        cases c <;> first | exact ho.elim | skip
        rename_i v l
        exact ⟨[], v, l, cs, rfl, by simp, i2 hs⟩

theorem fresh_new : ∀ {ks : List Kind}, (∀ k ∈ ks, k ≠ .outlier .two ∧ k ≠ .outlier .three) → Fresh ks
  | [], _ => trivial
  | .plain :: r, h => fresh_new (ks := r) (fun k hk => h k (List.mem_cons_of_mem _ hk))
  | .sink :: r, h => fun k hk => h k (List.mem_cons_of_mem _ hk)
  | .outlier _ :: r, h => fun k hk => h k (List.mem_cons_of_mem _ hk)

/-- **C67**: a pipeline that finishes, whatever the stream, has at most one outlier removal, and only stages that support several
passes are before it.  All other pipelines abort. -/
theorem finished_shape (E : Env) {cs : List Config} {ps ps' : List Stage} (hc : createAll cs = some ps) {stream : List Batch}
    {n : Nat} (h : drive E stream n ps = .finished ps') : (∀ c ∈ cs, ¬ IsOutlier c) ∨
      ∃ pre v l post, cs = pre ++ .outlier v l :: post ∧ (∀ c ∈ pre, Restartable c) ∧ ∀ c ∈ post, ¬ IsOutlier c :=
  (createAll_kinds hc).2.2 (drive_shape E stream n ps ps' (fresh_new (createAll_kinds hc).1) h)

/-! ### Writing PLY files needs points -/

/-- If `has_intensities_` is initialized there are points. -/
def Initialized : Stage → Prop
  | .ply _ n _ hi _ => hi.isSome → 0 < n
  | _ => True

theorem process_initialized (E : Env) {st st' : Stage} {b : Batch} {o : Option Batch} (h : st.process E b = some (st', o))
    (hi : Initialized st) : Initialized st' := by
  have hk := (stage_class E h).2
  cases st with
  | ply cs n hc hi' f =>
    simp only [Stage.process, Option.bind_eq_bind] at h
    split at h
    · cases h; exact hi
    · rename_i hne
      have hpos := List.length_pos_iff.2 hne
      split at h <;> simp only [Option.bind_eq_some_iff] at h
      · obtain ⟨_, _, _, _, _, _, h⟩ := h
        split at h
        · cases h
        · split at h
          · cases h
          · obtain ⟨_, _, h⟩ := Option.bind_eq_some_iff.1 h
            cases h; exact fun _ => by omega
      · obtain ⟨_, _, _, _, h⟩ := h
        split at h
        · cases h
        · split at h
          · cases h
          · obtain ⟨_, _, h⟩ := Option.bind_eq_some_iff.1 h
            cases h; exact fun _ => by omega
  | _ =>
    cases st' with
    | ply => cases hk
    | _ => trivial

theorem pipeline_initialized (E : Env) : ∀ {ps ps' : List Stage} {b : Batch}, process E ps b = some ps' →
    (∀ st ∈ ps, Initialized st) → ∀ st ∈ ps', Initialized st
  | [], ps', b, h, hi => by cases h; exact hi
  | st :: rest, ps', b, h, hi => by
    simp only [process, Option.bind_eq_bind, Option.bind_eq_some_iff] at h
    obtain ⟨⟨st', o⟩, h1, h2⟩ := h
    rw [List.forall_mem_cons] at hi
    have i1 := process_initialized E h1 hi.1
    cases o with
    | none =>
      cases h2
      rw [List.forall_mem_cons]
      exact ⟨i1, hi.2⟩
    | some b' =>
      simp only [Option.bind_eq_some_iff] at h2
      obtain ⟨rest', h3, h4⟩ := h2
      cases h4
      rw [List.forall_mem_cons]
      exact ⟨i1, pipeline_initialized E h3 hi.2⟩

theorem stream_initialized (E : Env) : ∀ {stream : List Batch} {ps ps' : List Stage}, stream.foldlM (process E) ps = some ps' →
    (∀ st ∈ ps, Initialized st) → ∀ st ∈ ps', Initialized st
  | [], ps, ps', h, hi => by cases h; exact hi
  | b :: stream, ps, ps', h, hi => by
    rw [List.foldlM_cons] at h
    obtain ⟨p1, h1, h2⟩ := Option.bind_eq_some_iff.1 h
    exact stream_initialized E h2 (pipeline_initialized E h1 hi)

/-- A file with points. -/
def Populated : Stage → Prop
  | .ply _ n _ _ _ => 0 < n
  | _ => True

theorem flush_initialized : ∀ {ps ps' : List Stage} {r : FlushResult}, flush ps = some (ps', r) →
    (∀ st ∈ ps, Initialized st) → (∀ st ∈ ps', Initialized st) ∧ (r = .finished → ∀ st ∈ ps', Populated st)
  | [], ps', r, h, hi => by cases h; simp
  | st :: rest, ps', r, h, hi => by
    rw [List.forall_mem_cons] at hi
    cases st with
    | outlier v l p g =>
      cases p
      · cases h
        rw [List.forall_mem_cons]
        exact ⟨⟨trivial, hi.2⟩, fun h => nomatch h⟩
      · cases h
        rw [List.forall_mem_cons]
        exact ⟨⟨trivial, hi.2⟩, fun h => nomatch h⟩
      · simp only [flush, Option.bind_eq_bind, Option.bind_eq_some_iff] at h
        obtain ⟨⟨rest', r'⟩, h1, h2⟩ := h
        have ih := flush_initialized h1 hi.2
        cases r'
        · cases h2
        · cases h2; exact ⟨List.forall_mem_cons.2 ⟨trivial, ih.1⟩, fun h => List.forall_mem_cons.2 ⟨trivial, ih.2 h⟩⟩
    | counting num =>
      simp only [flush, Option.bind_eq_bind, Option.bind_eq_some_iff] at h
      obtain ⟨⟨rest', r'⟩, h1, h2⟩ := h
      have ih := flush_initialized h1 hi.2
      cases r' <;> (cases h2; exact ⟨List.forall_mem_cons.2 ⟨trivial, ih.1⟩, fun h => List.forall_mem_cons.2 ⟨trivial, ih.2 h⟩⟩)
    | sampling ra s =>
      simp only [flush, Option.bind_eq_bind, Option.bind_eq_some_iff] at h
      obtain ⟨⟨rest', r'⟩, h1, h2⟩ := h
      have ih := flush_initialized h1 hi.2
      cases r'
      · simp only [Option.bind_eq_some_iff] at h2
        obtain ⟨_, _, h2⟩ := h2
        cases h2; exact ⟨List.forall_mem_cons.2 ⟨trivial, ih.1⟩, fun h => List.forall_mem_cons.2 ⟨trivial, ih.2 h⟩⟩
      · cases h2; exact ⟨List.forall_mem_cons.2 ⟨trivial, ih.1⟩, fun h => List.forall_mem_cons.2 ⟨trivial, ih.2 h⟩⟩
    | xyz f =>
      simp only [flush, Option.bind_eq_bind, Option.bind_eq_some_iff] at h
      obtain ⟨⟨rest', r'⟩, h1, h2⟩ := h
      have ih := flush_initialized h1 hi.2
      cases r'
      · cases h2
      · cases h2; exact ⟨List.forall_mem_cons.2 ⟨trivial, ih.1⟩, fun h => List.forall_mem_cons.2 ⟨trivial, ih.2 h⟩⟩
    | ply cs n hc hi' f =>
      simp only [flush, Option.bind_eq_bind, Option.bind_eq_some_iff] at h
      obtain ⟨v, rfl, _, _, ⟨rest', r'⟩, h1, h2⟩ := h
      have ih := flush_initialized h1 hi.2
      cases r'
      · cases h2
      · cases h2; exact ⟨List.forall_mem_cons.2 ⟨hi.1, ih.1⟩, fun h => List.forall_mem_cons.2 ⟨hi.1 rfl, ih.2 h⟩⟩
    | pcd n hc f =>
      simp only [flush, Option.bind_eq_bind, Option.bind_eq_some_iff] at h
      obtain ⟨_, _, ⟨rest', r'⟩, h1, h2⟩ := h
      have ih := flush_initialized h1 hi.2
      cases r'
      · cases h2
      · cases h2; exact ⟨List.forall_mem_cons.2 ⟨trivial, ih.1⟩, fun h => List.forall_mem_cons.2 ⟨trivial, ih.2 h⟩⟩
    | grid seen fl =>
      simp only [flush, Option.bind_eq_bind, Option.bind_eq_some_iff] at h
      obtain ⟨⟨rest', r'⟩, h1, h2⟩ := h
      have ih := flush_initialized h1 hi.2
      cases r'
      · cases h2
      · cases h2; exact ⟨List.forall_mem_cons.2 ⟨trivial, ih.1⟩, fun h => List.forall_mem_cons.2 ⟨trivial, ih.2 h⟩⟩
    | _ =>
      simp only [flush, Option.bind_eq_bind, Option.bind_eq_some_iff] at h
      obtain ⟨⟨rest', r'⟩, h1, h2⟩ := h
      have ih := flush_initialized h1 hi.2
      cases h2; exact ⟨List.forall_mem_cons.2 ⟨trivial, ih.1⟩, fun h => List.forall_mem_cons.2 ⟨trivial, ih.2 h⟩⟩

theorem drive_populated (E : Env) (stream : List Batch) : ∀ (n : Nat) (ps ps' : List Stage), (∀ st ∈ ps, Initialized st) →
    drive E stream n ps = .finished ps' → ∀ st ∈ ps', Populated st
  | 0, ps, ps', _, h => by cases h
  | n + 1, ps, ps', hi, h => by
    simp only [drive] at h
    split at h
    · cases h
    · rename_i p hp
      cases h
      simp only [pass, Option.bind_eq_bind, Option.bind_eq_some_iff] at hp
      obtain ⟨p, h1, h2⟩ := hp
      exact (flush_initialized h2 (stream_initialized E h1 hi)).2 rfl
    · rename_i p hp
      simp only [pass, Option.bind_eq_bind, Option.bind_eq_some_iff] at hp
      obtain ⟨q, h1, h2⟩ := hp
      exact drive_populated E stream n p ps' (flush_initialized h2 (stream_initialized E h1 hi)).1 h

theorem createAll_initialized : ∀ {cs : List Config} {ps : List Stage}, createAll cs = some ps → ∀ st ∈ ps, Initialized st
  | [], ps, h => by
    simp only [createAll, List.mapM_nil] at h
    cases h
    simp
  | c :: cs, ps, h => by
    simp only [createAll, List.mapM_cons, Option.bind_eq_bind, Option.bind_eq_some_iff] at h
    obtain ⟨st, h1, rest, h2, h3⟩ := h
    cases h3
    rw [List.forall_mem_cons]
    refine ⟨?_, createAll_initialized h2⟩
    cases c with
    | sampling r =>
      simp only [create] at h1
      split at h1
      · obtain ⟨_, _, rfl⟩ := Option.map_eq_some_iff.1 h1
        trivial
      · cases h1
    | frameId keep drop =>
      simp only [create] at h1
      split at h1
      · cases h1
      · cases h1; trivial
    | ply o cs => cases h1; exact fun h => nomatch h
    | _ => cases h1; trivial

/-- **C67**: a pipeline that finishes has given at least one point to each PLY writer.  Without points `Flush` reads
`has_intensities_`, which is not initialized. -/
theorem finished_populated (E : Env) {cs : List Config} {ps ps' : List Stage} (hc : createAll cs = some ps) {stream : List Batch}
    {n : Nat} (h : drive E stream n ps = .finished ps') : ∀ st ∈ ps', Populated st :=
  drive_populated E stream n ps ps' (createAll_initialized hc) h

/-! ### Examples -/

/-- A number written as one character, and points of the x axis. -/
def exEnv : Env where
  norm p := |p.x|
  coord p := [Char.ofNat (48 + p.x.num.toNat)]
  bytes v := ['i', Char.ofNat (48 + v.num.toNat)]
  color c := (Char.ofNat (97 + c.r.num.toNat), Char.ofNat (97 + c.g.num.toNat), Char.ofNat (97 + c.b.num.toNat))
  line p := [Char.ofNat (48 + p.x.num.toNat), '\n']

def exBatch (frame : String) (xs : List ℚ) (colors : List C3) : Batch :=
  ⟨0, ⟨0, 0, 0⟩, frame, 0, xs.map (fun x => ⟨x, 0, 0⟩), [], colors⟩

def exStream : List Batch := [exBatch "a" [3, 5] [], exBatch "b" [6, 7] [], exBatch "a" [5, 90] []]

/-- Points of the frame `a`, at most 10 away; the ray to 5 passes through the voxel of the point 3, so that this is an outlier. -/
def exConfig : List Config :=
  [.counting, .frameId ["a"] [], .minMax 0 10, .outlier 1 1, .coloring ⟨1, 2, 3⟩ "a", .ply true [], .pcd true, .xyz true, .grid]

/-- The files written by the stages. -/
def filesOf : Outcome → Option (List (List Char))
  | .finished ps => some (ps.filterMap (fun st => match st with
    | .ply _ _ _ _ f | .pcd _ _ f | .xyz f => some f.bytes
    | _ => none))
  | _ => none

theorem exFine : Fine exEnv exConfig (exStream.map view) := by
  refine ⟨trivial, trivial, trivial, trivial, trivial, trivial, ⟨by norm_num, ?_⟩, trivial, trivial, trivial, ⟨?_, ?_⟩, ⟨?_, ?_⟩,
    trivial, ?_, trivial, trivial, trivial, trivial, trivial⟩
  all_goals first
    | decide +kernel
    | (simp only [Writable]; decide +kernel)
    | (simp only [Valid]; decide +kernel)

/-- Three passes; the files contain the points that are not outliers. -/
example : filesOf (match createAll exConfig with
    | some ps => drive exEnv exStream 3 ps
    | none => .aborted) = some
      [plyHeader true false [] 2 ++ "5bcd5bcd".toList, pcdHeader true 2 ++ ['5', 'd', 'c', 'b', Char.ofNat 0, '5', 'd', 'c', 'b', Char.ofNat 0],
        "5\n5\n".toList] := by decide +kernel

example : ∃ ps ps', createAll exConfig = some ps ∧ drive exEnv exStream 3 ps = .finished ps' ∧
    Finals exEnv exConfig (exStream.map view) ps' := by
  obtain ⟨ps, hp⟩ : ∃ ps, createAll exConfig = some ps := ⟨_, rfl⟩
  obtain ⟨ps', h⟩ := pipeline_three_passes exEnv (pre := [.counting, .frameId ["a"] [], .minMax 0 10]) (v := 1) (l := 1)
    (post := [.coloring ⟨1, 2, 3⟩ "a", .ply true [], .pcd true, .xyz true, .grid]) hp (by simp [Restartable]) (by simp [IsOutlier])
    (stream := exStream) (by simp [exStream, exBatch, Aligned]) exFine (n := 3) (by omega)
  exact ⟨ps, ps', hp, h⟩

/-- Two outlier removals abort. -/
example : (createAll [.outlier 1 1, .outlier 1 1]).map (fun ps => (filesOf (drive exEnv exStream 3 ps)).isSome) = some false := by
  decide +kernel

/-- A PLY writer that gets no points aborts. -/
example : (createAll [.frameId ["c"] [], .ply true []]).map (fun ps => (filesOf (drive exEnv exStream 3 ps)).isSome) = some false := by
  decide +kernel

/-- **Finding**: a PCD writer that gets batches with and without colours writes a file that does not fit its header: the header
announces a colour for every point. -/
theorem pcd_mixed_colors : (createAll [.pcd true]).map (fun ps => filesOf (drive exEnv
      [exBatch "a" [1] [⟨1, 2, 3⟩], exBatch "a" [2, 3] []] 1 ps)) =
    some (some [pcdHeader true 3 ++ ['1', 'd', 'c', 'b', Char.ofNat 0, '2', '3']]) := by decide +kernel

/-- **Finding**: if a file cannot be opened the run is reported as finished although nothing was written. -/
theorem unopened_unnoticed : (createAll [.xyz false]).map (fun ps => filesOf (drive exEnv exStream 1 ps)) = some (some [[]]) := by
  decide +kernel

end Verif.Points
