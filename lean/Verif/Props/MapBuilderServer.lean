import Verif.MapBuilderServer

/-!
# C62: subscribers receive what was published while they were subscribed; C63: clients only reach their own trajectories
-/

namespace Verif.Server

variable {D R O : Type}

/-! ### Specification -/

/-- What a connection listening to `src` should be sent because of an event. -/
def relevant : Source → Event D R O → Option (Msg R O)
  | .localSlam t, .published t' r => if t' = t then some (.result r) else none
  | .localSlam t, .notifiedFinished t' => if t' = t then some .finished else none
  | .globalSlam, .optimized o => some (.optimized o)
  | _, _ => none

/-- What was written to a connection. -/
def inbox (s : State D R O) (c : Nat) : List (Msg R O) := (s.written.filter (fun x => x.1 = c)).map (·.2)

/-- Data sent by a client for a trajectory. -/
def sentBy (client : String) (t : Int) : Event D R O → Option D
  | .sent client' t' d => if client' = client ∧ t' = t then some d else none
  | _ => none

/-- The data of a trajectory: first what its builder was given, then what waits in the queue. -/
def dataOf (s : State D R O) (t : Int) : List D :=
  (s.added.filter (fun x => x.1 = t)).map (·.2.1) ++ (s.queue.filter (fun x => x.1 = t)).map (·.2)

/-- The open connections take messages. -/
def Reliable (s : State D R O) (a : Act D R O) : Prop :=
  ∀ c h, SMap.get? c s.handlers = some h →
    match a with
    | .slam _ _ takes => takes c = true
    | .finish _ _ _ takes => takes c = true
    | .notifyFinish takes => takes c = true
    | .optimized _ takes => takes c = true
    | _ => True

/-- Executions in which open connections take messages. -/
inductive RExec : List (Act D R O) → State D R O → Prop where
  | nil : RExec [] {}
  | snoc {as : List (Act D R O)} {a : Act D R O} {s s' : State D R O} :
      RExec as s → Reliable s a → exec s a = some s' → RExec (as ++ [a]) s'

/-! ### Invariant of the subscriptions -/

/-- What a handler listens to. -/
def Subscription.source : Subscription → Source
  | .localSlam t _ => .localSlam t
  | .globalSlam _ => .globalSlam

/-- The maps of subscriptions and the handlers agree. -/
structure Subs (s : State D R O) : Prop where
  lsorted : SMap.Sorted s.localSubs
  tsorted : ∀ t, SMap.Sorted (subsOf s t)
  gsorted : SMap.Sorted s.globalSubs
  hsorted : SMap.Sorted s.handlers
  loc : ∀ t i c, SMap.get? i (subsOf s t) = some c ↔ SMap.get? c s.handlers = some (.localSlam t i)
  glob : ∀ i c, SMap.get? i s.globalSubs = some c ↔ SMap.get? c s.handlers = some (.globalSlam i)
  fresh : ∀ c h, SMap.get? c s.handlers = some h → c < s.conns
  index : ∀ c, (∀ t i, SMap.get? c s.handlers = some (.localSlam t i) → i < s.nextIndex) ∧
    ∀ i, SMap.get? c s.handlers = some (.globalSlam i) → i < s.nextIndex

theorem subsOf_put {s : State D R O} {t u : Int} {m : List (Int × Nat)} :
    (SMap.get? u (SMap.put t m s.localSubs)).getD [] = if u = t then m else subsOf s u := by
  rw [SMap.get?_put]
  by_cases h : u = t
  · subst h; simp
  · rw [if_neg (fun e => h e.symm), if_neg h]; rfl

theorem tell_eq (takes : Nat → Bool) (m : Msg R O) : ∀ (subs : List (Int × Nat)) (w : List (Nat × Msg R O)),
    tell takes m subs w = if (∀ e ∈ subs, takes e.2 = true) then some (w ++ subs.map (fun e => (e.2, m))) else none
  | [], w => by simp [tell]
  | (i, c) :: subs, w => by
    unfold tell
    by_cases h : takes c = true
    · rw [if_pos h, tell_eq takes m subs]
      by_cases ha : ∀ e ∈ subs, takes e.2 = true
      · rw [if_pos ha, if_pos (by simp only [List.mem_cons, forall_eq_or_imp]; exact ⟨h, ha⟩)]
        simp
      · rw [if_neg ha, if_neg (fun hc => ha (fun e he => hc e (List.mem_cons_of_mem _ he)))]
    · rw [if_neg h, if_neg]
      intro hc
      exact h (hc (i, c) (by simp))

theorem filter_unique {α : Type} {l : List α} {p : α → Bool} {x : α} (hn : l.Nodup) (hx : x ∈ l) (hp : p x = true)
    (hu : ∀ y ∈ l, p y = true → y = x) : l.filter p = [x] := by
  induction l with
  | nil => cases hx
  | cons a l ih =>
    obtain ⟨h1, h2⟩ := List.nodup_cons.1 hn
    rcases List.mem_cons.1 hx with rfl | hx'
    · rw [List.filter_cons, if_pos hp]
      congr 1
      rw [List.filter_eq_nil_iff]
      intro y hy hpy
      exact h1 (hu y (List.mem_cons_of_mem _ hy) hpy ▸ hy)
    · have ha : ¬ p a = true := by
        intro hpa
        exact h1 (hu a (by simp) hpa ▸ hx')
      rw [List.filter_cons, if_neg ha]
      exact ih h2 hx' (fun y hy => hu y (List.mem_cons_of_mem _ hy))

theorem sorted_nodup {K V : Type} [LinearOrder K] {l : List (K × V)} (h : SMap.Sorted l) : l.Nodup :=
  h.imp (fun {a b} hab e => by rw [e] at hab; exact lt_irrefl _ hab)

/-- The messages for one connection among those for all subscribers. -/
theorem told {subs : List (Int × Nat)} (hs : SMap.Sorted subs) {h : Option Subscription} {f : Int → Subscription} {src : Source}
    (hf : ∀ i j, f i = f j → i = j) (hsrc : ∀ k, Subscription.source k = src ↔ ∃ i, k = f i)
    {c : Nat} (hc : ∀ i, SMap.get? i subs = some c ↔ h = some (f i)) (m : Msg R O) {e : Event D R O}
    (he : ∀ src', relevant src' e = if src' = src then some m else none) :
    ((subs.map (fun e => (e.2, m))).filter (fun x => x.1 = c)).map (·.2) =
      h.elim [] (fun k => (relevant k.source e).toList) := by
  rw [List.filter_map, List.map_map]
  by_cases hi : ∃ i, h = some (f i)
  · obtain ⟨i, hi⟩ := hi
    rw [filter_unique (x := (i, c)) (sorted_nodup hs) (SMap.mem_of_get? ((hc i).2 hi)) (by simp)]
    · rw [hi]
      simp only [Option.elim, he, (hsrc _).2 ⟨i, rfl⟩, if_pos]
      rfl
    · rintro ⟨j, c'⟩ hy hp
      simp only [Function.comp, decide_eq_true_eq] at hp
      subst hp
      have hj := (hc j).1 (SMap.get?_of_mem hs hy)
      rw [hi] at hj
      rw [hf _ _ (Option.some.inj hj)]
  · have : subs.filter ((fun x : Nat × Msg R O => decide (x.1 = c)) ∘ fun e => (e.2, m)) = [] := by
      rw [List.filter_eq_nil_iff]
      rintro ⟨j, c'⟩ hy hp
      simp only [Function.comp, decide_eq_true_eq] at hp
      subst hp
      exact hi ⟨j, (hc j).1 (SMap.get?_of_mem hs hy)⟩
    rw [this]
    cases h with
    | none => rfl
    | some k =>
      have hk : ¬ k.source = src := fun e => hi (((hsrc k).1 e).imp (fun i hi => by rw [hi]))
      simp only [Option.elim, he, if_neg hk]
      rfl

/-- The event is about subscribing or closing the connection. -/
def about (c : Nat) : Event D R O → Bool
  | .subscribed c' _ => c' = c
  | .closed c' => c' = c
  | _ => false

/-- What a connection received: nothing if it does not exist yet; otherwise the log tells when it was subscribed to what, and
it received what was relevant from then on up to now or to when it was closed. -/
def Received (s : State D R O) (c : Nat) : Prop :=
  (s.conns ≤ c → inbox s c = [] ∧ ∀ e ∈ s.log, about c e = false) ∧
  (c < s.conns → ∃ A src B, s.log = A ++ .subscribed c src :: B ∧ (∀ e ∈ A, about c e = false) ∧
    ((∃ h, SMap.get? c s.handlers = some h ∧ h.source = src ∧ (∀ e ∈ B, about c e = false) ∧
        inbox s c = B.filterMap (relevant src)) ∨
      (SMap.get? c s.handlers = none ∧ ∃ B₁ B₂, B = B₁ ++ .closed c :: B₂ ∧ (∀ e ∈ B₁, about c e = false) ∧
        (∀ e ∈ B₂, about c e = false) ∧ inbox s c = B₁.filterMap (relevant src))))

/-- A step that leaves the connections alone and tells the right subscribers. -/
theorem received_snoc {s s' : State D R O} {c : Nat} {e : Event D R O} (h : Received s c) (hcn : c < s'.conns ↔ c < s.conns)
    (hh : SMap.get? c s'.handlers = SMap.get? c s.handlers) (hl : s'.log = s.log ++ [e]) (he : about c e = false)
    (hw : inbox s' c = inbox s c ++ (SMap.get? c s.handlers).elim [] (fun k => (relevant k.source e).toList))
    (hfr : ∀ c h, SMap.get? c s.handlers = some h → c < s.conns) : Received s' c := by
  unfold Received at h ⊢
  rw [← not_lt] at h ⊢
  rw [hcn, hh, hl]
  rw [not_lt] at h ⊢
  constructor
  · intro hc
    obtain ⟨h1, h2⟩ := h.1 hc
    have hn : SMap.get? c s.handlers = none := by
      cases hg : SMap.get? c s.handlers with
      | none => rfl
      | some k => exact absurd (hfr c k hg) (not_lt.2 hc)
    rw [hn] at hw
    refine ⟨by rw [hw, h1]; rfl, fun x hx => ?_⟩
    rcases List.mem_append.1 hx with hx | hx
    · exact h2 x hx
    · rw [List.mem_singleton.1 hx]; exact he
  · intro hc
    obtain ⟨A, src, B, h1, h2, h3⟩ := h.2 hc
    refine ⟨A, src, B ++ [e], by rw [h1]; simp, h2, ?_⟩
    rcases h3 with ⟨k, k1, k2, k3, k4⟩ | ⟨k1, B₁, B₂, k2, k3, k4, k5⟩
    · left
      refine ⟨k, k1, k2, fun x hx => ?_, ?_⟩
      · rcases List.mem_append.1 hx with hx | hx
        · exact k3 x hx
        · rw [List.mem_singleton.1 hx]; exact he
      · rw [hw, k1, k4, List.filterMap_append]
        simp only [Option.elim, k2]
        cases hr : relevant src e <;> simp [hr]
    · right
      refine ⟨k1, B₁, B₂ ++ [e], by rw [k2]; simp, k3, fun x hx => ?_, ?_⟩
      · rcases List.mem_append.1 hx with hx | hx
        · exact k4 x hx
        · rw [List.mem_singleton.1 hx]; exact he
      · rw [hw, k1, k5]; simp

/-- A step that does not concern connections at all. -/
theorem received_same {s s' : State D R O} {c : Nat} (h : Received s c) (hcn : s'.conns = s.conns) (hh : s'.handlers = s.handlers)
    (hl : s'.log = s.log) (hw : s'.written = s.written) : Received s' c := by
  unfold Received inbox at h ⊢
  rw [hcn, hh, hl, hw]
  exact h

theorem subs_same {s s' : State D R O} (h : Subs s) (h1 : s'.localSubs = s.localSubs) (h2 : s'.globalSubs = s.globalSubs)
    (h3 : s'.handlers = s.handlers) (h4 : s'.conns = s.conns) (h5 : s'.nextIndex = s.nextIndex) : Subs s' := by
  have e : ∀ t, subsOf s' t = subsOf s t := fun t => by unfold subsOf; rw [h1]
  constructor
  · rw [h1]; exact h.lsorted
  · intro t; rw [e]; exact h.tsorted t
  · rw [h2]; exact h.gsorted
  · rw [h3]; exact h.hsorted
  · intro t i c; rw [e, h3]; exact h.loc t i c
  · intro i c; rw [h2, h3]; exact h.glob i c
  · rw [h3, h4]; exact h.fresh
  · rw [h3, h5]; exact h.index

/-- Both invariants. -/
structure Inv (s : State D R O) : Prop where
  subs : Subs s
  received : ∀ c, Received s c

theorem inbox_append {s s' : State D R O} {c : Nat} {w : List (Nat × Msg R O)} (h : s'.written = s.written ++ w) :
    inbox s' c = inbox s c ++ (w.filter (fun x => x.1 = c)).map (·.2) := by
  unfold inbox; rw [h]; simp

theorem told_local {s : State D R O} (h : Subs s) (t : Int) (c : Nat) {m : Msg R O} {e : Event D R O}
    (he : ∀ src', relevant src' e = if src' = .localSlam t then some m else none) :
    (((subsOf s t).map (fun e => (e.2, m))).filter (fun x => x.1 = c)).map (·.2) =
      (SMap.get? c s.handlers).elim [] (fun k => (relevant k.source e).toList) := by
  refine told (h.tsorted t) (f := fun i => .localSlam t i) (fun i j e => by injection e) (fun k => ?_) (fun i => h.loc t i c) m he
  cases k with
  | localSlam t' i =>
    simp only [Subscription.source, Source.localSlam.injEq, Subscription.localSlam.injEq, exists_and_left, exists_eq', and_true]
  | globalSlam i => simp [Subscription.source]

theorem told_global {s : State D R O} (h : Subs s) (c : Nat) {m : Msg R O} {e : Event D R O}
    (he : ∀ src', relevant src' e = if src' = .globalSlam then some m else none) :
    ((s.globalSubs.map (fun e => (e.2, m))).filter (fun x => x.1 = c)).map (·.2) =
      (SMap.get? c s.handlers).elim [] (fun k => (relevant k.source e).toList) := by
  refine told h.gsorted (f := fun i => .globalSlam i) (fun i j e => by injection e) (fun k => ?_) (fun i => h.glob i c) m he
  cases k with
  | localSlam t' i => simp [Subscription.source]
  | globalSlam i => simp [Subscription.source]

theorem publish_inv {takes : Nat → Bool} {s s' : State D R O} {x : Int × R} (h : Inv s) (hp : publish takes s x = some s') :
    Inv s' ∧ s'.handlers = s.handlers := by
  unfold publish at hp
  split at hp
  · obtain rfl := Option.some.inj hp
    exact ⟨h, rfl⟩
  · rw [tell_eq] at hp
    simp only [Option.bind_eq_bind, Option.bind_eq_some_iff, Option.some.injEq] at hp
    obtain ⟨w, hw, rfl⟩ := hp
    split at hw
    · obtain rfl := Option.some.inj hw
      refine ⟨⟨subs_same h.subs rfl rfl rfl rfl rfl, fun c => ?_⟩, rfl⟩
      refine received_snoc (e := .published x.1 x.2) (h.received c) Iff.rfl rfl rfl rfl ?_ h.subs.fresh
      rw [inbox_append (s := s) rfl, told_local h.subs (e := .published x.1 x.2)]
      intro src
      cases src with
      | localSlam t => simp only [relevant, Source.localSlam.injEq, eq_comm]
      | globalSlam => simp [relevant]
    · cases hw

theorem publishAll_inv {takes : Nat → Bool} : ∀ {xs : List (Int × R)} {s s' : State D R O}, Inv s →
    publishAll takes s xs = some s' → Inv s' ∧ s'.handlers = s.handlers
  | [], s, s', h, hp => by
    obtain rfl := Option.some.inj hp
    exact ⟨h, rfl⟩
  | x :: xs, s, s', h, hp => by
    simp only [publishAll, Option.bind_eq_some_iff] at hp
    obtain ⟨s₁, h1, h2⟩ := hp
    obtain ⟨i1, e1⟩ := publish_inv h h1
    obtain ⟨i2, e2⟩ := publishAll_inv i1 h2
    exact ⟨i2, e2.trans e1⟩

/-- A step that only adds an event without messages. -/
theorem received_log {s s' : State D R O} {c : Nat} {e : Event D R O} (h : Inv s) (hcn : c < s'.conns ↔ c < s.conns)
    (hh : SMap.get? c s'.handlers = SMap.get? c s.handlers) (hl : s'.log = s.log ++ [e]) (hw : s'.written = s.written)
    (he : about c e = false) (hr : ∀ src, relevant src e = none) : Received s' c := by
  refine received_snoc (h.received c) hcn hh hl he ?_ h.subs.fresh
  rw [inbox_append (s := s) (w := []) (by rw [hw]; simp)]
  congr 1
  cases SMap.get? c s.handlers with
  | none => rfl
  | some k => simp [hr]

theorem subscribeLocal_subs {s s' : State D R O} (h : Subs s) {t : Int} (hc : exec s (.subscribeLocal t) = some s') : Subs s' := by
  simp only [exec, Option.some.injEq] at hc
  subst hc
  have hsub : ∀ u, subsOf { s with
      localSubs := SMap.put t (SMap.put s.nextIndex s.conns (subsOf s t)) s.localSubs
      nextIndex := s.nextIndex + 1
      handlers := SMap.put s.conns (.localSlam t s.nextIndex) s.handlers
      conns := s.conns + 1
      log := s.log ++ [.subscribed s.conns (.localSlam t)] } u =
        if u = t then SMap.put s.nextIndex s.conns (subsOf s t) else subsOf s u := fun u => subsOf_put
  have hnone : SMap.get? s.conns s.handlers = none := by
    cases hg : SMap.get? s.conns s.handlers with
    | none => rfl
    | some k => exact absurd (h.fresh _ _ hg) (lt_irrefl _)
  constructor
  · exact SMap.sorted_put h.lsorted
  · intro u
    rw [hsub]
    split
    · exact SMap.sorted_put (h.tsorted t)
    · exact h.tsorted u
  · exact h.gsorted
  · exact SMap.sorted_put h.hsorted
  · intro u i c
    rw [hsub]
    dsimp only
    rw [SMap.get?_put]
    by_cases hc : s.conns = c
    · subst hc
      rw [if_pos rfl]
      by_cases hu : u = t
      · subst hu
        rw [if_pos rfl, SMap.get?_put]
        by_cases hi : s.nextIndex = i
        · subst hi; simp
        · rw [if_neg hi, h.loc, hnone]
          simp [hi]
      · rw [if_neg hu, h.loc, hnone]
        simp only [reduceCtorEq, Option.some.injEq, Subscription.localSlam.injEq, false_iff]
        exact fun e => hu e.1.symm
    · rw [if_neg hc, ← h.loc]
      by_cases hu : u = t
      · subst hu
        rw [if_pos rfl, SMap.get?_put]
        by_cases hi : s.nextIndex = i
        · rw [if_pos hi, h.loc]
          constructor
          · intro e; exact absurd (Option.some.inj e) hc
          · intro e; exact absurd ((h.index c).1 _ _ e) (by rw [hi]; exact lt_irrefl _)
        · rw [if_neg hi]
      · rw [if_neg hu]
  · intro i c
    dsimp only
    rw [SMap.get?_put, h.glob]
    by_cases hc : s.conns = c
    · subst hc
      rw [if_pos rfl, hnone]
      simp
    · rw [if_neg hc]
  · intro c k hk
    dsimp only at hk ⊢
    rw [SMap.get?_put] at hk
    split at hk
    · omega
    · exact Nat.lt_succ_of_lt (h.fresh c k hk)
  · intro c
    dsimp only
    rw [SMap.get?_put]
    split
    · refine ⟨fun t' i e => ?_, fun i e => by cases e⟩
      injection e with e; injection e with _ e; omega
    · exact ⟨fun t' i e => lt_trans ((h.index c).1 t' i e) (lt_add_one _), fun i e => lt_trans ((h.index c).2 i e) (lt_add_one _)⟩

theorem subscribeGlobal_subs {s s' : State D R O} (h : Subs s) (hc : exec s .subscribeGlobal = some s') : Subs s' := by
  simp only [exec, Option.some.injEq] at hc
  subst hc
  have hnone : SMap.get? s.conns s.handlers = none := by
    cases hg : SMap.get? s.conns s.handlers with
    | none => rfl
    | some k => exact absurd (h.fresh _ _ hg) (lt_irrefl _)
  constructor
  · exact h.lsorted
  · exact h.tsorted
  · exact SMap.sorted_put h.gsorted
  · exact SMap.sorted_put h.hsorted
  · intro u i c
    change SMap.get? i (subsOf s u) = some c ↔ _
    dsimp only
    rw [SMap.get?_put, h.loc]
    by_cases hc : s.conns = c
    · subst hc
      rw [if_pos rfl, hnone]
      simp
    · rw [if_neg hc]
  · intro i c
    dsimp only
    rw [SMap.get?_put, SMap.get?_put]
    by_cases hc : s.conns = c
    · subst hc
      rw [if_pos rfl]
      by_cases hi : s.nextIndex = i
      · subst hi; simp
      · rw [if_neg hi, h.glob, hnone]
        simp [hi]
    · rw [if_neg hc, ← h.glob]
      by_cases hi : s.nextIndex = i
      · rw [if_pos hi, h.glob]
        constructor
        · intro e; exact absurd (Option.some.inj e) hc
        · intro e; exact absurd ((h.index c).2 _ e) (by rw [hi]; exact lt_irrefl _)
      · rw [if_neg hi]
  · intro c k hk
    dsimp only at hk ⊢
    rw [SMap.get?_put] at hk
    split at hk
    · omega
    · exact Nat.lt_succ_of_lt (h.fresh c k hk)
  · intro c
    dsimp only
    rw [SMap.get?_put]
    split
    · refine ⟨fun t' i e => (by cases e), fun i e => ?_⟩
      injection e with e; injection e with e; omega
    · exact ⟨fun t' i e => lt_trans ((h.index c).1 t' i e) (lt_add_one _), fun i e => lt_trans ((h.index c).2 i e) (lt_add_one _)⟩

theorem close_subs {s s' : State D R O} (h : Subs s) {c₀ : Nat} (hc : exec s (.close c₀) = some s') : Subs s' := by
  simp only [exec] at hc
  split at hc
  · obtain rfl := Option.some.inj hc
    exact h
  · rename_i t i₀ hg
    split at hc
    · obtain rfl := Option.some.inj hc
      have hsub : ∀ u, subsOf { s with
          localSubs := SMap.put t (SMap.erase i₀ (subsOf s t)) s.localSubs
          handlers := SMap.erase c₀ s.handlers
          log := s.log ++ [.closed c₀] } u = if u = t then SMap.erase i₀ (subsOf s t) else subsOf s u := fun u => subsOf_put
      constructor
      · exact SMap.sorted_put h.lsorted
      · intro u
        rw [hsub]
        split
        · exact SMap.sorted_erase (h.tsorted t)
        · exact h.tsorted u
      · exact h.gsorted
      · exact SMap.sorted_erase h.hsorted
      · intro u i c
        rw [hsub]
        dsimp only
        rw [SMap.get?_erase]
        by_cases hcc : c₀ = c
        · subst hcc
          rw [if_pos rfl]
          simp only [reduceCtorEq, iff_false]
          by_cases hu : u = t
          · subst hu
            rw [if_pos rfl, SMap.get?_erase]
            by_cases hi : i₀ = i
            · rw [if_pos hi]; simp
            · rw [if_neg hi, h.loc, hg]
              simp [hi]
          · rw [if_neg hu, h.loc, hg]
            simp only [Option.some.injEq, Subscription.localSlam.injEq]
            exact fun e => hu e.1.symm
        · rw [if_neg hcc, ← h.loc]
          by_cases hu : u = t
          · subst hu
            rw [if_pos rfl, SMap.get?_erase]
            by_cases hi : i₀ = i
            · subst hi
              rw [if_pos rfl]
              simp only [reduceCtorEq, false_iff]
              rw [(h.loc u i₀ c₀).2 hg]
              exact fun e => hcc (Option.some.inj e)
            · rw [if_neg hi]
          · rw [if_neg hu]
      · intro i c
        dsimp only
        rw [SMap.get?_erase, h.glob]
        by_cases hcc : c₀ = c
        · subst hcc
          rw [if_pos rfl, hg]
          simp
        · rw [if_neg hcc]
      · intro c k hk
        dsimp only at hk
        rw [SMap.get?_erase] at hk
        split at hk
        · cases hk
        · exact h.fresh c k hk
      · intro c
        dsimp only
        rw [SMap.get?_erase]
        split
        · exact ⟨fun _ _ e => (nomatch e), fun _ e => (nomatch e)⟩
        · exact h.index c
    · cases hc
  · rename_i i₀ hg
    split at hc
    · obtain rfl := Option.some.inj hc
      constructor
      · exact h.lsorted
      · exact h.tsorted
      · exact SMap.sorted_erase h.gsorted
      · exact SMap.sorted_erase h.hsorted
      · intro u i c
        change SMap.get? i (subsOf s u) = some c ↔ _
        dsimp only
        rw [SMap.get?_erase, h.loc]
        by_cases hcc : c₀ = c
        · subst hcc
          rw [if_pos rfl, hg]
          simp
        · rw [if_neg hcc]
      · intro i c
        dsimp only
        rw [SMap.get?_erase, SMap.get?_erase]
        by_cases hcc : c₀ = c
        · subst hcc
          rw [if_pos rfl]
          simp only [reduceCtorEq, iff_false]
          by_cases hi : i₀ = i
          · rw [if_pos hi]; simp
          · rw [if_neg hi, h.glob, hg]
            simp [hi]
        · rw [if_neg hcc, ← h.glob]
          by_cases hi : i₀ = i
          · subst hi
            rw [if_pos rfl]
            simp only [reduceCtorEq, false_iff]
            rw [(h.glob i₀ c₀).2 hg]
            exact fun e => hcc (Option.some.inj e)
          · rw [if_neg hi]
      · intro c k hk
        dsimp only at hk
        rw [SMap.get?_erase] at hk
        split at hk
        · cases hk
        · exact h.fresh c k hk
      · intro c
        dsimp only
        rw [SMap.get?_erase]
        split
        · exact ⟨fun _ _ e => (nomatch e), fun _ e => (nomatch e)⟩
        · exact h.index c
    · cases hc

/-- Subscribing a new connection. -/
theorem received_subscribe {s s' : State D R O} (h : Inv s) {k : Subscription} (hcn : s'.conns = s.conns + 1)
    (hh : s'.handlers = SMap.put s.conns k s.handlers) (hl : s'.log = s.log ++ [.subscribed s.conns k.source])
    (hw : s'.written = s.written) (c : Nat) : Received s' c := by
  by_cases hc : c = s.conns
  · subst hc
    obtain ⟨h1, h2⟩ := (h.received s.conns).1 (le_refl _)
    refine ⟨fun hlt => by omega, fun _ => ⟨s.log, k.source, [], hl, h2, Or.inl ⟨k, ?_, rfl, by simp, ?_⟩⟩⟩
    · rw [hh, SMap.get?_put, if_pos rfl]
    · rw [inbox_append (s := s) (w := []) (by rw [hw]; simp), h1]; rfl
  · refine received_log h ?_ ?_ hl hw ?_ ?_
    · omega
    · rw [hh, SMap.get?_put, if_neg (fun e => hc e.symm)]
    · simp only [about, decide_eq_false_iff_not]; exact fun e => hc e.symm
    · intro src; cases src <;> rfl

/-- Closing an open connection. -/
theorem received_close {s s' : State D R O} (h : Inv s) {c₀ : Nat} {k : Subscription} (hg : SMap.get? c₀ s.handlers = some k)
    (hcn : s'.conns = s.conns) (hh : s'.handlers = SMap.erase c₀ s.handlers) (hl : s'.log = s.log ++ [.closed c₀])
    (hw : s'.written = s.written) (c : Nat) : Received s' c := by
  by_cases hc : c = c₀
  · subst hc
    have hlt := h.subs.fresh c k hg
    obtain ⟨A, src, B, h1, h2, h3⟩ := (h.received c).2 hlt
    refine ⟨fun hle => by omega, fun _ => ⟨A, src, B ++ [.closed c], by rw [hl, h1]; simp, h2, Or.inr ⟨?_, B, [], rfl, ?_, by simp, ?_⟩⟩⟩
    · rw [hh, SMap.get?_erase, if_pos rfl]
    · rcases h3 with ⟨_, _, _, h5, _⟩ | ⟨h5, _⟩
      · exact h5
      · rw [hg] at h5; cases h5
    · rw [inbox_append (s := s) (w := []) (by rw [hw]; simp)]
      rcases h3 with ⟨_, _, _, _, h5⟩ | ⟨h5, _⟩
      · rw [h5]; simp
      · rw [hg] at h5; cases h5
  · refine received_log h ?_ ?_ hl hw ?_ ?_
    · rw [hcn]
    · rw [hh, SMap.get?_erase, if_neg (fun e => hc e.symm)]
    · simp only [about, decide_eq_false_iff_not]; exact fun e => hc e.symm
    · intro src; cases src <;> rfl

theorem inv_step {s s' : State D R O} (h : Inv s) {a : Act D R O} (hr : Reliable s a) (hc : exec s a = some s') : Inv s' := by
  cases a with
  | addTrajectory client =>
    simp only [exec] at hc
    split at hc
    · cases hc
    · obtain rfl := Option.some.inj hc
      exact ⟨subs_same h.subs rfl rfl rfl rfl rfl, fun c => received_log h Iff.rfl rfl rfl rfl rfl (fun src => by cases src <;> rfl)⟩
  | load =>
    obtain rfl := Option.some.inj hc
    exact ⟨subs_same h.subs rfl rfl rfl rfl rfl, fun c => received_same (h.received c) rfl rfl rfl rfl⟩
  | sensorData client t d =>
    simp only [exec] at hc
    split at hc <;>
    · obtain rfl := Option.some.inj hc
      exact ⟨subs_same h.subs rfl rfl rfl rfl rfl, fun c => received_log h Iff.rfl rfl rfl rfl rfl (fun src => by cases src <;> rfl)⟩
  | slam kept results takes =>
    simp only [exec] at hc
    split at hc
    · obtain rfl := Option.some.inj hc
      exact h
    · split at hc
      · refine (publishAll_inv ?_ hc).1
        exact ⟨subs_same h.subs rfl rfl rfl rfl rfl, fun c => received_same (h.received c) rfl rfl rfl rfl⟩
      · cases hc
  | finish client t results takes =>
    simp only [exec] at hc
    split at hc
    · split at hc
      · cases hc
      · refine (publishAll_inv ?_ hc).1
        exact ⟨subs_same h.subs rfl rfl rfl rfl rfl, fun c => received_same (h.received c) rfl rfl rfl rfl⟩
    · obtain rfl := Option.some.inj hc
      exact h
  | notifyFinish takes =>
    simp only [exec] at hc
    split at hc
    · obtain rfl := Option.some.inj hc
      exact h
    · rename_i t ts _
      obtain rfl := Option.some.inj hc
      refine ⟨subs_same h.subs rfl rfl rfl rfl rfl, fun c => ?_⟩
      refine received_snoc (e := .notifiedFinished t) (h.received c) Iff.rfl rfl rfl rfl ?_ h.subs.fresh
      rw [inbox_append (s := s) rfl]
      have hall : (subsOf s t).filter (fun e => takes e.2) = subsOf s t := by
        rw [List.filter_eq_self]
        rintro ⟨i, c⟩ he
        exact hr c _ ((h.subs.loc t i c).1 (SMap.get?_of_mem (h.subs.tsorted t) he))
      rw [hall, told_local h.subs (e := .notifiedFinished t)]
      intro src
      cases src with
      | localSlam t => simp only [relevant, Source.localSlam.injEq, eq_comm]
      | globalSlam => simp [relevant]
  | optimized o takes =>
    simp only [exec] at hc
    rw [tell_eq] at hc
    simp only [Option.bind_eq_bind, Option.bind_eq_some_iff, Option.some.injEq] at hc
    obtain ⟨w, hw, rfl⟩ := hc
    split at hw
    · obtain rfl := Option.some.inj hw
      refine ⟨subs_same h.subs rfl rfl rfl rfl rfl, fun c => ?_⟩
      refine received_snoc (e := .optimized o) (h.received c) Iff.rfl rfl rfl rfl ?_ h.subs.fresh
      rw [inbox_append (s := s) rfl, told_global h.subs (e := .optimized o)]
      intro src
      cases src with
      | localSlam t => simp [relevant]
      | globalSlam => simp [relevant]
    · cases hw
  | subscribeLocal t =>
    refine ⟨subscribeLocal_subs h.subs hc, fun c => ?_⟩
    simp only [exec, Option.some.injEq] at hc
    subst hc
    exact received_subscribe h (k := .localSlam t s.nextIndex) (by rfl) (by rfl) (by rfl) (by rfl) c
  | subscribeGlobal =>
    refine ⟨subscribeGlobal_subs h.subs hc, fun c => ?_⟩
    simp only [exec, Option.some.injEq] at hc
    subst hc
    exact received_subscribe h (k := .globalSlam s.nextIndex) (by rfl) (by rfl) (by rfl) (by rfl) c
  | close c₀ =>
    refine ⟨close_subs h.subs hc, fun c => ?_⟩
    simp only [exec] at hc
    split at hc
    · obtain rfl := Option.some.inj hc
      exact h.received c
    · rename_i hg
      split at hc
      · obtain rfl := Option.some.inj hc
        exact received_close h hg (by rfl) (by rfl) (by rfl) (by rfl) c
      · cases hc
    · rename_i hg
      split at hc
      · obtain rfl := Option.some.inj hc
        exact received_close h hg (by rfl) (by rfl) (by rfl) (by rfl) c
      · cases hc

theorem inv_init : Inv ({} : State D R O) := by
  refine ⟨⟨SMap.sorted_nil, fun t => SMap.sorted_nil, SMap.sorted_nil, SMap.sorted_nil, ?_, ?_, ?_, ?_⟩, fun c => ⟨fun _ => ?_, fun hc => ?_⟩⟩
  · intro t i c; simp [subsOf, SMap.get?]
  · intro i c; simp [SMap.get?]
  · intro c k hk; simp [SMap.get?] at hk
  · intro c; simp [SMap.get?]
  · simp [inbox]
  · exact absurd hc (Nat.not_lt_zero _)

theorem inv_exec {as : List (Act D R O)} {s : State D R O} (h : RExec as s) : Inv s := by
  induction h with
  | nil => exact inv_init
  | snoc _ hr hs ih => exact inv_step ih hr hs

/-- **C62, what a subscriber receives**: as long as open connections take messages, in every execution with any number of
trajectories, results, subscribers and in any order of the steps, a connection was written exactly the messages relevant to what
it subscribed to, each once and in the order they were published, from when it was subscribed until it was closed. -/
theorem subscriber_receives_partial {as : List (Act D R O)} {s : State D R O} (h : RExec as s) (c : Nat) : Received s c :=
  (inv_exec h).received c

/-! ### Clients and their data -/

/-- The trajectory and client of an event that registers one. -/
def registers (t : Int) : Event D R O → Bool
  | .addedTrajectory _ t' => t' = t
  | _ => false

/-- Clients, their trajectories and the data. -/
structure Clients (s : State D R O) : Prop where
  sorted : SMap.Sorted s.clients
  builder : ∀ t k, SMap.get? t s.clients = some k → 0 ≤ t ∧ s.builders[t.toNat]? = some true
  queued : ∀ x ∈ s.queue, (SMap.get? x.1 s.clients).isSome
  owned : ∀ t k, SMap.get? t s.clients = some k → ∃ A B, s.log = A ++ .addedTrajectory k t :: B ∧
    (∀ e ∈ A ++ B, registers t e = false) ∧ dataOf s t = B.filterMap (sentBy k t)
  unowned : ∀ t, SMap.get? t s.clients = none → dataOf s t = [] ∧ ∀ e ∈ s.log, registers t e = false

theorem clients_event {s s' : State D R O} {e : Event D R O} (h : Clients s) (hb : s'.builders = s.builders) (hc : s'.clients = s.clients)
    (hq : s'.queue = s.queue) (ha : s'.added = s.added) (hl : s'.log = s.log ++ [e]) (hr : ∀ t, registers t e = false)
    (hs : ∀ k t, SMap.get? t s.clients = some k → sentBy k t e = none) : Clients s' := by
  have hd : ∀ t, dataOf s' t = dataOf s t := fun t => by unfold dataOf; rw [ha, hq]
  refine ⟨by rw [hc]; exact h.sorted, by rw [hc, hb]; exact h.builder, by rw [hq, hc]; exact h.queued, fun t k hk => ?_, fun t ht => ?_⟩
  · rw [hc] at hk
    obtain ⟨A, B, h1, h2, h3⟩ := h.owned t k hk
    refine ⟨A, B ++ [e], by rw [hl, h1]; simp, fun x hx => ?_, ?_⟩
    · rw [← List.append_assoc] at hx
      rcases List.mem_append.1 hx with hx | hx
      · exact h2 x hx
      · rw [List.mem_singleton.1 hx]; exact hr t
    · rw [hd, h3, List.filterMap_append]
      simp [hs k t hk]
  · rw [hc] at ht
    obtain ⟨h1, h2⟩ := h.unowned t ht
    refine ⟨by rw [hd, h1], fun x hx => ?_⟩
    rw [hl] at hx
    rcases List.mem_append.1 hx with hx | hx
    · exact h2 x hx
    · rw [List.mem_singleton.1 hx]; exact hr t

theorem clients_same {s s' : State D R O} (h : Clients s) (hb : s'.builders = s.builders) (hc : s'.clients = s.clients)
    (hq : s'.queue = s.queue) (ha : s'.added = s.added) (hl : s'.log = s.log) : Clients s' := by
  have hd : ∀ t, dataOf s' t = dataOf s t := fun t => by unfold dataOf; rw [ha, hq]
  refine ⟨by rw [hc]; exact h.sorted, by rw [hc, hb]; exact h.builder, by rw [hq, hc]; exact h.queued, ?_, ?_⟩
  · rw [hc, hl]; simp only [hd]; exact h.owned
  · rw [hc, hl]; simp only [hd]; exact h.unowned

theorem publish_clients {takes : Nat → Bool} {s s' : State D R O} {x : Int × R} (h : Clients s) (hp : publish takes s x = some s') :
    Clients s' := by
  unfold publish at hp
  split at hp
  · obtain rfl := Option.some.inj hp
    exact h
  · simp only [Option.bind_eq_bind, Option.bind_eq_some_iff, Option.some.injEq] at hp
    obtain ⟨w, hw, rfl⟩ := hp
    exact clients_event h (by rfl) (by rfl) (by rfl) (by rfl) (e := .published x.1 x.2) (by rfl) (fun _ => rfl) (fun _ _ _ => rfl)

theorem publishAll_clients {takes : Nat → Bool} : ∀ {xs : List (Int × R)} {s s' : State D R O}, Clients s →
    publishAll takes s xs = some s' → Clients s'
  | [], s, s', h, hp => by
    obtain rfl := Option.some.inj hp
    exact h
  | x :: xs, s, s', h, hp => by
    simp only [publishAll, Option.bind_eq_some_iff] at hp
    obtain ⟨s₁, h1, h2⟩ := hp
    exact publishAll_clients (publish_clients h h1) h2

theorem clients_step {s s' : State D R O} (h : Clients s) {a : Act D R O} (hc : exec s a = some s') : Clients s' := by
  cases a with
  | addTrajectory client =>
    simp only [exec] at hc
    split at hc
    · cases hc
    · rename_i hn
      obtain rfl := Option.some.inj hc
      have hnone : SMap.get? (s.builders.length : Int) s.clients = none := by simpa using hn
      obtain ⟨u1, u2⟩ := h.unowned _ hnone
      refine ⟨SMap.sorted_put h.sorted, ?_, ?_, ?_, ?_⟩
      · intro t k hk
        dsimp only at hk ⊢
        rw [SMap.get?_put] at hk
        split at hk
        · rename_i e
          subst e
          refine ⟨by omega, ?_⟩
          simp
        · obtain ⟨h1, h2⟩ := h.builder t k hk
          refine ⟨h1, ?_⟩
          rw [List.getElem?_append_left (by
            by_contra hc
            rw [List.getElem?_eq_none (by omega)] at h2
            cases h2)]
          exact h2
      · intro x hx
        dsimp only
        rw [SMap.get?_put]
        split
        · rfl
        · exact h.queued x hx
      · intro t k hk
        dsimp only at hk ⊢
        rw [SMap.get?_put] at hk
        split at hk
        · rename_i e
          subst e
          obtain rfl := Option.some.inj hk
          refine ⟨s.log, [], rfl, by simpa using u2, u1⟩
        · rename_i hne
          obtain ⟨A, B, h1, h2, h3⟩ := h.owned t k hk
          refine ⟨A, B ++ [.addedTrajectory client s.builders.length], by rw [h1]; simp, fun x hx => ?_, ?_⟩
          · rw [← List.append_assoc] at hx
            rcases List.mem_append.1 hx with hx | hx
            · exact h2 x hx
            · rw [List.mem_singleton.1 hx]
              simp only [registers, decide_eq_false_iff_not]
              exact hne
          · rw [List.filterMap_append]
            simp only [List.filterMap_cons, sentBy, List.filterMap_nil, List.append_nil]
            exact h3
      · intro t ht
        dsimp only at ht
        rw [SMap.get?_put] at ht
        split at ht
        · cases ht
        · rename_i hne
          obtain ⟨h1, h2⟩ := h.unowned t ht
          refine ⟨h1, fun x hx => ?_⟩
          rcases List.mem_append.1 hx with hx | hx
          · exact h2 x hx
          · rw [List.mem_singleton.1 hx]
            simp only [registers, decide_eq_false_iff_not]
            exact hne
  | load =>
    obtain rfl := Option.some.inj hc
    refine ⟨h.sorted, fun t k hk => ?_, h.queued, h.owned, h.unowned⟩
    obtain ⟨h1, h2⟩ := h.builder t k hk
    refine ⟨h1, ?_⟩
    dsimp only
    rw [List.getElem?_append_left (by
      by_contra hc
      rw [List.getElem?_eq_none (by omega)] at h2
      cases h2)]
    exact h2
  | sensorData client t d =>
    simp only [exec] at hc
    split at hc
    · rename_i ho
      obtain rfl := Option.some.inj hc
      simp only [owns, beq_iff_eq] at ho
      refine ⟨h.sorted, h.builder, fun x hx => ?_, fun t' k hk => ?_, fun t' ht => ?_⟩
      · rcases List.mem_append.1 hx with hx | hx
        · exact h.queued x hx
        · rw [List.mem_singleton.1 hx]; simp [ho]
      · obtain ⟨A, B, h1, h2, h3⟩ := h.owned t' k hk
        refine ⟨A, B ++ [.sent client t d], by dsimp only; rw [h1]; simp, fun x hx => ?_, ?_⟩
        · rw [← List.append_assoc] at hx
          rcases List.mem_append.1 hx with hx | hx
          · exact h2 x hx
          · rw [List.mem_singleton.1 hx]; rfl
        · rw [List.filterMap_append, ← h3]
          unfold dataOf
          dsimp only
          rw [List.filter_append, List.map_append, List.append_assoc]
          congr 2
          by_cases htt : t = t'
          · subst htt
            rw [ho] at hk
            obtain rfl := Option.some.inj hk
            simp [sentBy]
          · simp [sentBy, htt]
      · obtain ⟨h1, h2⟩ := h.unowned t' ht
        have htt : ¬ t = t' := by
          rintro rfl
          dsimp only at ht
          rw [ho] at ht
          cases ht
        refine ⟨?_, fun x hx => ?_⟩
        · rw [← h1]
          unfold dataOf
          simp [htt]
        · rcases List.mem_append.1 hx with hx | hx
          · exact h2 x hx
          · rw [List.mem_singleton.1 hx]; rfl
    · rename_i ho
      obtain rfl := Option.some.inj hc
      refine clients_event h (by rfl) (by rfl) (by rfl) (by rfl) (e := .sent client t d) (by rfl) (fun _ => rfl) (fun k t' hk => ?_)
      simp only [owns, beq_iff_eq] at ho
      simp only [sentBy]
      rw [if_neg]
      rintro ⟨rfl, rfl⟩
      exact ho hk
  | slam kept results takes =>
    simp only [exec] at hc
    split at hc
    · obtain rfl := Option.some.inj hc
      exact h
    · rename_i t d q hq
      split at hc
      · refine publishAll_clients ?_ hc
        have hd : ∀ t', dataOf { s with queue := q, added := s.added ++ [(t, d, decide (t ∉ s.finished) || kept)] } t' = dataOf s t' := by
          intro t'
          unfold dataOf
          dsimp only
          rw [hq, List.filter_append, List.map_append, List.filter_cons (x := (t, d))]
          by_cases htt : t = t'
          · simp [htt]
          · simp [htt]
        refine ⟨h.sorted, h.builder, fun x hx => h.queued x (by rw [hq]; exact List.mem_cons_of_mem _ hx), ?_, ?_⟩
        · simp only [hd]; exact h.owned
        · simp only [hd]; exact h.unowned
      · cases hc
  | finish client t results takes =>
    simp only [exec] at hc
    split at hc
    · split at hc
      · cases hc
      · exact publishAll_clients (clients_same h (by rfl) (by rfl) (by rfl) (by rfl) (by rfl)) hc
    · obtain rfl := Option.some.inj hc
      exact h
  | notifyFinish takes =>
    simp only [exec] at hc
    split at hc
    · obtain rfl := Option.some.inj hc
      exact h
    · rename_i t ts _
      obtain rfl := Option.some.inj hc
      exact clients_event h (by rfl) (by rfl) (by rfl) (by rfl) (e := .notifiedFinished t) (by rfl) (fun _ => rfl) (fun _ _ _ => rfl)
  | optimized o takes =>
    simp only [exec, Option.bind_eq_bind, Option.bind_eq_some_iff, Option.some.injEq] at hc
    obtain ⟨w, -, rfl⟩ := hc
    exact clients_event h (by rfl) (by rfl) (by rfl) (by rfl) (e := .optimized o) (by rfl) (fun _ => rfl) (fun _ _ _ => rfl)
  | subscribeLocal t =>
    simp only [exec, Option.some.injEq] at hc
    subst hc
    exact clients_event h (by rfl) (by rfl) (by rfl) (by rfl) (e := .subscribed s.conns (.localSlam t)) (by rfl) (fun _ => rfl) (fun _ _ _ => rfl)
  | subscribeGlobal =>
    simp only [exec, Option.some.injEq] at hc
    subst hc
    exact clients_event h (by rfl) (by rfl) (by rfl) (by rfl) (e := .subscribed s.conns .globalSlam) (by rfl) (fun _ => rfl) (fun _ _ _ => rfl)
  | close c =>
    simp only [exec] at hc
    split at hc
    · obtain rfl := Option.some.inj hc
      exact h
    all_goals
      split at hc
      · obtain rfl := Option.some.inj hc
        exact clients_event h (by rfl) (by rfl) (by rfl) (by rfl) (e := .closed c) (by rfl) (fun _ => rfl) (fun _ _ _ => rfl)
      · cases hc

theorem clients_init : Clients ({} : State D R O) :=
  ⟨SMap.sorted_nil, by simp [SMap.get?], by simp, by simp [SMap.get?], by simp [dataOf]⟩

theorem clients_exec {as : List (Act D R O)} {s : State D R O} (h : Exec as s) : Clients s := by
  induction h with
  | nil => exact clients_init
  | snoc _ hs ih => exact clients_step ih hs

/-- **C63, clients reach only their own trajectories**: in every execution, whatever other clients send, a trajectory has
exactly one client, the one whose request created it, and the data its builder was given and that still waits is exactly what
this client sent for it since, in order, each item once. -/
theorem trajectory_data {as : List (Act D R O)} {s : State D R O} (h : Exec as s) {t : Int} {client : String}
    (ht : SMap.get? t s.clients = some client) :
    ∃ A B, s.log = A ++ .addedTrajectory client t :: B ∧ (∀ e ∈ A ++ B, registers t e = false) ∧
      dataOf s t = B.filterMap (sentBy client t) :=
  (clients_exec h).owned t client ht

/-- Trajectories that no client created (loaded or unknown ones) get no data. -/
theorem no_data_without_client {as : List (Act D R O)} {s : State D R O} (h : Exec as s) {t : Int}
    (ht : SMap.get? t s.clients = none) : dataOf s t = [] ∧ ∀ e ∈ s.log, registers t e = false :=
  (clients_exec h).unowned t ht

/-! ### Aborts -/

theorem rexec_exec {as : List (Act D R O)} {s : State D R O} (h : RExec as s) : Exec as s := by
  induction h with
  | nil => exact .nil
  | snoc _ _ hs ih => exact .snoc ih hs

theorem tell_some {takes : Nat → Bool} {m : Msg R O} {subs : List (Int × Nat)} {w : List (Nat × Msg R O)}
    (h : ∀ e ∈ subs, takes e.2 = true) : ∃ w', tell takes m subs w = some w' :=
  ⟨_, by rw [tell_eq, if_pos h]⟩

theorem publishAll_some {takes : Nat → Bool} : ∀ {xs : List (Int × R)} {s : State D R O}, Inv s →
    (∀ c h, SMap.get? c s.handlers = some h → takes c = true) → ∃ s', publishAll takes s xs = some s'
  | [], s, _, _ => ⟨s, rfl⟩
  | x :: xs, s, h, ht => by
    have : ∃ s₁, publish takes s x = some s₁ := by
      unfold publish
      split
      · exact ⟨_, rfl⟩
      · obtain ⟨w, hw⟩ := tell_some (takes := takes) (m := .result x.2) (subs := subsOf s x.1) (w := s.written) (by
          rintro ⟨i, c⟩ he
          exact ht c _ ((h.subs.loc x.1 i c).1 (SMap.get?_of_mem (h.subs.tsorted x.1) he)))
        rw [hw]
        exact ⟨_, rfl⟩
    obtain ⟨s₁, h1⟩ := this
    obtain ⟨i1, e1⟩ := publish_inv h h1
    obtain ⟨s', hs'⟩ := publishAll_some (xs := xs) i1 (by rw [e1]; exact ht)
    exact ⟨s', by rw [publishAll, h1]; exact hs'⟩

/-- Ids of trajectories with a client are below the number of trajectories, so registering a client does not abort. -/
theorem new_id_free {s : State D R O} (h : Clients s) : SMap.get? (s.builders.length : Int) s.clients = none := by
  cases hg : SMap.get? (s.builders.length : Int) s.clients with
  | none => rfl
  | some k =>
    obtain ⟨-, h2⟩ := h.builder _ _ hg
    simp at h2

/-- **C62, no abort**: as long as open connections take messages, the only request that makes the server abort is finishing
a trajectory for the second time by its own client. -/
theorem no_abort_partial {as : List (Act D R O)} {s : State D R O} (h : RExec as s) {a : Act D R O} (hr : Reliable s a) :
    exec s a = none ↔ ∃ client t results takes, a = .finish client t results takes ∧ SMap.get? t s.clients = some client ∧
      t ∈ s.finished := by
  have hi := inv_exec h
  have hcl := clients_exec (rexec_exec h)
  constructor
  · intro hn
    cases a with
    | addTrajectory client =>
      simp only [exec, new_id_free hcl] at hn
      simp at hn
    | load => simp [exec] at hn
    | sensorData client t d =>
      simp only [exec] at hn
      split at hn <;> simp at hn
    | slam kept results takes =>
      exfalso
      simp only [exec] at hn
      split at hn
      · cases hn
      · rename_i t d q hq
        obtain ⟨k, hk⟩ := Option.isSome_iff_exists.1 (hcl.queued (t, d) (by rw [hq]; simp))
        rw [if_pos (hcl.builder t k hk)] at hn
        obtain ⟨s', hs'⟩ := publishAll_some (takes := takes) (xs := results)
          (s := { s with queue := q, added := s.added ++ [(t, d, decide (t ∉ s.finished) || kept)] })
          ⟨subs_same hi.subs rfl rfl rfl rfl rfl, fun c => received_same (hi.received c) rfl rfl rfl rfl⟩
          (fun c h hg => hr c h hg)
        rw [hs'] at hn
        cases hn
    | finish client t results takes =>
      simp only [exec] at hn
      split at hn
      · rename_i ho
        split at hn
        · rename_i hf
          exact ⟨client, t, results, takes, rfl, by simpa [owns] using ho, hf⟩
        · obtain ⟨s', hs'⟩ := publishAll_some (takes := takes) (xs := results)
            (s := { s with finished := s.finished ++ [t], toNotify := s.toNotify ++ [t] })
            ⟨subs_same hi.subs rfl rfl rfl rfl rfl, fun c => received_same (hi.received c) rfl rfl rfl rfl⟩
            (fun c h hg => hr c h hg)
          rw [hs'] at hn
          cases hn
      · cases hn
    | notifyFinish takes =>
      simp only [exec] at hn
      split at hn <;> cases hn
    | optimized o takes =>
      exfalso
      obtain ⟨w, hw⟩ := tell_some (takes := takes) (m := .optimized o) (subs := s.globalSubs) (w := s.written) (by
        rintro ⟨i, c⟩ he
        exact hr c _ ((hi.subs.glob i c).1 (SMap.get?_of_mem hi.subs.gsorted he)))
      simp [exec, hw] at hn
    | subscribeLocal t => simp [exec] at hn
    | subscribeGlobal => simp [exec] at hn
    | close c =>
      exfalso
      simp only [exec] at hn
      split at hn
      · cases hn
      · rename_i t i hg
        rw [(hi.subs.loc t i c).2 hg] at hn
        simp at hn
      · rename_i i hg
        rw [(hi.subs.glob i c).2 hg] at hn
        simp at hn
  · rintro ⟨client, t, results, takes, rfl, h1, h2⟩
    simp only [exec, owns, h1, beq_self_eq_true, if_true, if_pos h2]

/-- **C62 is false if a connection refuses a message**: the interface promises that the server then ends the subscription, but
the loop erases the element its iterator points to; any result for a subscriber that refuses it is undefined behaviour. -/
theorem refused_undefined {as : List (Act D R O)} {s : State D R O} (h : RExec as s) {t : Int} {client : String}
    (ht : SMap.get? t s.clients = some client) {c : Nat} {i : Int} (hc : SMap.get? c s.handlers = some (.localSlam t i))
    {takes : Nat → Bool} (hn : takes c = false) (r : R) : publish takes s (t, r) = none := by
  have hi := inv_exec h
  unfold publish
  simp only [ht]
  rw [tell_eq, if_neg]
  · rfl
  · intro hall
    have := hall (i, c) (SMap.mem_of_get? ((hi.subs.loc t i c).2 hc))
    rw [hn] at this
    cases this

/-- The same for global SLAM optimizations. -/
theorem refused_undefined_global {as : List (Act D R O)} {s : State D R O} (h : RExec as s)
    {c : Nat} {i : Int} (hc : SMap.get? c s.handlers = some (.globalSlam i)) {takes : Nat → Bool} (hn : takes c = false) (o : O) :
    exec s (.optimized o takes) = none := by
  have hi := inv_exec h
  simp only [exec]
  rw [tell_eq, if_neg]
  · rfl
  · intro hall
    have := hall (i, c) (SMap.mem_of_get? ((hi.subs.glob i c).2 hc))
    rw [hn] at this
    cases this

/-! ### Every finished trajectory is announced once -/

/-- The trajectories announced as finished, in order. -/
def announced (s : State D R O) : List Int :=
  s.log.filterMap (fun e => match e with | .notifiedFinished t => some t | _ => none)

/-- The announced trajectories are those finished so far except the ones still to be announced. -/
structure Announced (s : State D R O) : Prop where
  order : announced s ++ s.toNotify = s.finished
  once : s.finished.Nodup
  owned : ∀ t ∈ s.finished, (SMap.get? t s.clients).isSome

theorem announced_same {s s' : State D R O} (h : Announced s) (hl : announced s' = announced s) (hn : s'.toNotify = s.toNotify)
    (hf : s'.finished = s.finished) (hc : ∀ t, (SMap.get? t s.clients).isSome → (SMap.get? t s'.clients).isSome) : Announced s' :=
  ⟨by rw [hl, hn, hf, h.order], by rw [hf]; exact h.once, fun t ht => hc t (h.owned t (hf ▸ ht))⟩

theorem publish_announced {takes : Nat → Bool} {s s' : State D R O} {x : Int × R} (h : Announced s)
    (hp : publish takes s x = some s') : Announced s' := by
  unfold publish at hp
  split at hp
  · cases hp; exact h
  · simp only [Option.bind_eq_bind, Option.bind_eq_some_iff, Option.some.injEq] at hp
    obtain ⟨w, _, rfl⟩ := hp
    exact announced_same h (by simp [announced]) rfl rfl (fun _ h => h)

theorem publishAll_announced {takes : Nat → Bool} : ∀ {xs : List (Int × R)} {s s' : State D R O}, Announced s →
    publishAll takes s xs = some s' → Announced s'
  | [], _, _, h, hp => by cases hp; exact h
  | x :: xs, s, s', h, hp => by
    simp only [publishAll, Option.bind_eq_some_iff] at hp
    obtain ⟨s₁, h1, h2⟩ := hp
    exact publishAll_announced (publish_announced h h1) h2

theorem announced_step {s s' : State D R O} (h : Announced s) {a : Act D R O} (hc : exec s a = some s') : Announced s' := by
  cases a with
  | addTrajectory client =>
    simp only [exec] at hc
    split at hc
    · cases hc
    · cases hc
      refine announced_same h (by simp [announced]) rfl rfl ?_
      intro t ht
      rw [SMap.get?_put]
      split
      · rfl
      · exact ht
  | load =>
    simp only [exec, Option.some.injEq] at hc
    subst hc
    exact announced_same h rfl rfl rfl (fun _ h => h)
  | sensorData client t d =>
    simp only [exec] at hc
    split at hc <;> cases hc <;> exact announced_same h (by simp [announced]) rfl rfl (fun _ h => h)
  | slam kept results takes =>
    simp only [exec] at hc
    split at hc
    · cases hc; exact h
    · split at hc
      · refine publishAll_announced ?_ hc
        exact announced_same h rfl rfl rfl (fun _ h => h)
      · cases hc
  | finish client t results takes =>
    simp only [exec] at hc
    split at hc
    · rename_i ho
      split at hc
      · cases hc
      · rename_i hf
        refine publishAll_announced ⟨?_, ?_, ?_⟩ hc
        · show announced s ++ (s.toNotify ++ [t]) = s.finished ++ [t]
          rw [← List.append_assoc, h.order]
        · show (s.finished ++ [t]).Nodup
          rw [List.nodup_append]
          refine ⟨h.once, by simp, ?_⟩
          intro a ha b hb
          simp only [List.mem_singleton] at hb
          subst hb
          exact fun e => hf (e ▸ ha)
        · intro u hu
          rcases List.mem_append.1 hu with hu | hu
          · exact h.owned u hu
          · simp only [List.mem_singleton] at hu
            subst hu
            simp only [owns, beq_iff_eq] at ho
            show (SMap.get? u s.clients).isSome
            rw [ho]; rfl
    · cases hc; exact h
  | notifyFinish takes =>
    simp only [exec] at hc
    split at hc
    · cases hc; exact h
    · rename_i t ts ht
      cases hc
      refine ⟨?_, h.once, h.owned⟩
      have := h.order
      rw [ht] at this
      show (s.log ++ [Event.notifiedFinished t]).filterMap _ ++ ts = s.finished
      rw [List.filterMap_append, List.append_assoc]
      exact this
  | optimized o takes =>
    simp only [exec, Option.bind_eq_bind, Option.bind_eq_some_iff, Option.some.injEq] at hc
    obtain ⟨w, _, rfl⟩ := hc
    exact announced_same h (by simp [announced]) rfl rfl (fun _ h => h)
  | subscribeLocal t =>
    simp only [exec, Option.some.injEq] at hc
    subst hc
    exact announced_same h (by simp [announced]) rfl rfl (fun _ h => h)
  | subscribeGlobal =>
    simp only [exec, Option.some.injEq] at hc
    subst hc
    exact announced_same h (by simp [announced]) rfl rfl (fun _ h => h)
  | close c =>
    simp only [exec] at hc
    split at hc
    · cases hc; exact h
    · split at hc
      · cases hc; exact announced_same h (by simp [announced]) rfl rfl (fun _ h => h)
      · cases hc
    · split at hc
      · cases hc; exact announced_same h (by simp [announced]) rfl rfl (fun _ h => h)
      · cases hc

/-- **C62**: a trajectory is announced as finished at most once, only after its client finished it, in that order; what was finished
and not announced yet is waiting to be announced. -/
theorem announced_once {as : List (Act D R O)} {s : State D R O} (h : Exec as s) :
    announced s ++ s.toNotify = s.finished ∧ s.finished.Nodup ∧ ∀ t ∈ s.finished, (SMap.get? t s.clients).isSome := by
  have : Announced s := by
    induction h with
    | nil => exact ⟨rfl, List.nodup_nil, fun t ht => by cases ht⟩
    | snoc _ hc ih => exact announced_step ih hc
  exact ⟨this.order, this.once, this.owned⟩

/-! ### Examples -/

section Examples

abbrev XState := State Nat Nat String
abbrev XAct := Act Nat Nat String

/-- Whether a connection takes the messages of a step. -/
def taken (a : XAct) (c : Nat) : Bool :=
  match a with
  | .slam _ _ takes => takes c
  | .finish _ _ _ takes => takes c
  | .notifyFinish takes => takes c
  | .optimized _ takes => takes c
  | _ => true

/-- Runs steps, checking that open connections take messages. -/
def run : XState → List XAct → Option XState
  | s, [] => some s
  | s, a :: as => if s.handlers.all (fun x => taken a x.1) then (exec s a).bind (fun s' => run s' as) else none

theorem rexec_of_run : ∀ {as bs : List XAct} {s s' : XState}, RExec as s → run s bs = some s' → RExec (as ++ bs) s'
  | as, [], s, s', h, hr => by
    simp only [run, Option.some.injEq] at hr
    subst hr
    simpa using h
  | as, b :: bs, s, s', h, hr => by
    simp only [run] at hr
    split at hr
    · rename_i hall
      obtain ⟨s₁, h1, h2⟩ := Option.bind_eq_some_iff.1 hr
      have := rexec_of_run (as := as ++ [b]) (.snoc h (fun c k hk => ?_) h1) h2
      · simpa using this
      · have hx := List.all_eq_true.1 hall (c, k) (SMap.mem_of_get? hk)
        cases b <;> first | exact trivial | exact hx
    · cases hr

/-- Two clients with a trajectory each; one subscriber of the first trajectory and one of optimizations join and leave. -/
def scenario : List XAct :=
  [.load, .addTrajectory "a", .sensorData "a" 1 10, .subscribeLocal 1, .addTrajectory "b", .sensorData "b" 1 99, .sensorData "b" 2 20,
    .slam false [(1, 100)] (fun _ => true), .subscribeGlobal, .optimized "x" (fun _ => true), .sensorData "a" 1 11,
    .slam false [(2, 200), (1, 101)] (fun _ => true), .close 1, .optimized "y" (fun c => c = 0), .finish "a" 1 [(1, 102)] (fun c => c = 0),
    .notifyFinish (fun c => c = 0), .slam false [] (fun c => c = 0), .close 0]

/-- Subscriber 0 gets the three results and the end of trajectory 1, subscriber 1 the first optimization.  The data client "b"
sent for the trajectory of client "a" is refused; the last item of client "a" was still waiting when its trajectory was
finished, and is ignored. -/
example : (run {} scenario).any (fun s => decide (
    inbox s 0 = [.result 100, .result 101, .result 102, .finished] ∧ inbox s 1 = [.optimized "x"] ∧
    dataOf s 1 = [10, 11] ∧ dataOf s 2 = [20] ∧ s.added = [(1, 10, true), (2, 20, true), (1, 11, false)] ∧
    s.clients = [(1, "a"), (2, "b")])) = true := by
  decide +kernel

example : (run {} scenario).any (fun s => decide (announced s = [1] ∧ s.finished = [1] ∧ s.toNotify = [])) = true := by
  decide +kernel

example : ∃ s : XState, RExec scenario s ∧ SMap.get? 1 s.clients = some "a" ∧ 1 < s.conns := by
  have h : (run {} scenario).any (fun s => decide (SMap.get? 1 s.clients = some "a" ∧ 1 < s.conns)) = true := by decide +kernel
  obtain ⟨s, hs, h⟩ := (Option.any_eq_true _ _).1 h
  exact ⟨s, by simpa using rexec_of_run .nil hs, by simpa using h⟩

/-- **C63, data sent before finishing may be ignored**: the client sends two items and then finishes its trajectory; the
items still in the queue of incoming data are given to the collator after the trajectory was finished there. -/
theorem data_before_finish_ignored : ∃ as : List XAct, ∃ s : XState, RExec as s ∧
    s.log = [.addedTrajectory "a" 0, .sent "a" 0 10, .sent "a" 0 11, .notifiedFinished 0] ∧
    s.added = [(0, 10, true), (0, 11, false)] := by
  have h : (run {} [.addTrajectory "a", .sensorData "a" 0 10, .sensorData "a" 0 11, .slam false [] (fun _ => true),
      .finish "a" 0 [] (fun _ => true), .notifyFinish (fun _ => true), .slam false [] (fun _ => true)]).any (fun s => decide (
        s.log = [.addedTrajectory "a" 0, .sent "a" 0 10, .sent "a" 0 11, .notifiedFinished 0] ∧
        s.added = [(0, 10, true), (0, 11, false)])) = true := by decide +kernel
  obtain ⟨s, hs, h⟩ := (Option.any_eq_true _ _).1 h
  exact ⟨_, s, rexec_of_run .nil hs, of_decide_eq_true h⟩

/-- **C62, a client can abort the server**: finishing a trajectory twice. -/
theorem finish_twice_aborts : ∃ as : List XAct, ∃ s : XState, RExec as s ∧ ∀ takes, exec s (.finish "a" 0 [] takes) = none := by
  have h : (run {} [.addTrajectory "a", .finish "a" 0 [] (fun _ => true)]).any (fun s => decide (
      SMap.get? 0 s.clients = some "a" ∧ 0 ∈ s.finished)) = true := by decide +kernel
  obtain ⟨s, hs, h⟩ := (Option.any_eq_true _ _).1 h
  have hr := rexec_of_run .nil hs
  refine ⟨_, s, hr, fun takes => ?_⟩
  obtain ⟨h1, h2⟩ := of_decide_eq_true h
  simp only [exec, owns, h1, beq_self_eq_true, if_true, if_pos h2]

/-- The hypotheses of `refused_undefined` are satisfiable. -/
example : ∃ as : List XAct, ∃ s : XState, RExec as s ∧ SMap.get? 0 s.clients = some "a" ∧
    SMap.get? 0 s.handlers = some (.localSlam 0 0) := by
  have h : (run {} [.addTrajectory "a", .subscribeLocal 0]).any (fun s => decide (
      SMap.get? 0 s.clients = some "a" ∧ SMap.get? 0 s.handlers = some (.localSlam 0 0))) = true := by decide +kernel
  obtain ⟨s, hs, h⟩ := (Option.any_eq_true _ _).1 h
  exact ⟨_, s, rexec_of_run .nil hs, of_decide_eq_true h⟩

end Examples

end Verif.Server
