import Verif.ThreadPool

/-! Executions of the thread pool and what clients asked for in them, stated on the trace only. -/

namespace Verif.ThreadPool

variable {W : Type} [DecidableEq W]

/-- `Exec tr s`: the actions `tr` (oldest first) lead from the constructed pool to `s`. -/
inductive Exec : List (Act W) → State W → Prop where
  | init : Exec [] (init W)
  | step {tr : List (Act W)} {s s' : State W} {a : Act W} :
      Exec tr s → Enabled s a → exec s a = some s' → Exec (tr ++ [a]) s'

/-- In `tr` some client declared `d` to be a dependency of `t`. -/
def Declared (tr : List (Act W)) (t d : Nat) : Prop :=
  ∃ a, Act.addDepBegin a t d ∈ tr ∨ Act.addDepExpired a t d ∈ tr

/-- In `tr` some client called `Schedule(t)`. -/
def Scheduled (tr : List (Act W)) (t : Nat) : Prop := ∃ a, Act.schedInsert a t ∈ tr

/-- Actions by which a client makes a new request, including the destructor call. -/
def Act.isRequest : Act W → Bool
  | .addDepBegin .. | .addDepExpired .. | .schedInsert .. | .shutdown => true
  | _ => false

/-- The state after the destructor has returned: all threads joined (thread_pool.cc:53-55). -/
def Joined (s : State W) : Prop := ∀ w, s.pc w = .exited

end Verif.ThreadPool
