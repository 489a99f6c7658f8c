import Verif.Model.Rules
/-!
# Specification of the rule engine
-/
namespace Rebulk.Spec

/-- The `dependency` attribute names `d`. -/
inductive Asks : Dependency → DepItem → Prop where
  | one (d : DepItem) : Asks (.one d) d
  | many {l : List DepItem} {d : DepItem} (h : d ∈ l) : Asks (.many l) d

/-- All dependencies are given as classes. -/
def OnlyClasses (rules : List RuleInfo) : Prop := ∀ r ∈ rules, ∀ d, Asks r.dependency d → ∃ c, d = .cls c

/-- `a` depends on `b`, another registered rule of the same priority. -/
def Requires (rules : List RuleInfo) (a b : RuleInfo) : Prop :=
  a ∈ rules ∧ b ∈ rules ∧ a.priority = b.priority ∧ a.cls ≠ b.cls ∧ Asks a.dependency (.cls b.cls)

/-- There is a chain of `n` dependencies from `x`. -/
inductive DepChain {α : Type} (dep : α → α → Prop) : α → Nat → Prop where
  | nil (x : α) : DepChain dep x 0
  | cons {x y : α} {n : Nat} : dep x y → DepChain dep y n → DepChain dep x (n + 1)

/-- The dependency level of `x`: the length of the longest chain of dependencies from it. -/
def Level {α : Type} (dep : α → α → Prop) (x : α) (n : Nat) : Prop := DepChain dep x n ∧ ∀ m, DepChain dep x m → m ≤ n

/-- Some rule of this priority depends on itself through others. -/
inductive RequiresTrans (rules : List RuleInfo) : RuleInfo → RuleInfo → Prop where
  | single {a b : RuleInfo} : Requires rules a b → RequiresTrans rules a b
  | step {a b c : RuleInfo} : Requires rules a b → RequiresTrans rules b c → RequiresTrans rules a c

/-- `a` was registered before `b`. -/
def RegisteredBefore (rules : List RuleInfo) (a b : RuleInfo) : Prop :=
  ∃ i j : Nat, i < j ∧ rules[i]? = some a ∧ rules[j]? = some b

/-- The first rule of the class was registered at position `i`. -/
def FirstOfClass (rules : List RuleInfo) (cls i : Nat) : Prop :=
  (∃ r, rules[i]? = some r ∧ r.cls = cls) ∧ ∀ k < i, ∀ r, rules[k]? = some r → r.cls ≠ cls

/-- The first rule of the class of `a` was registered before the first of the class of `b`. -/
def ClassBefore (rules : List RuleInfo) (a b : RuleInfo) : Prop :=
  ∃ i j : Nat, i < j ∧ FirstOfClass rules a.cls i ∧ FirstOfClass rules b.cls j

/-- The rules of priority `p`. -/
def atPriority (rules : List RuleInfo) (p : Int) : List RuleInfo := rules.filter (fun r => decide (r.priority = p))

/-- Two rules of the same class have priority `p`. -/
def DuplicatesAt (rules : List RuleInfo) (p : Int) : Prop := ¬ ((atPriority rules p).map (fun r => r.cls)).Nodup

/-- The rules of priority `p` have cyclic dependencies. -/
def CyclicAt (rules : List RuleInfo) (p : Int) : Prop := ∃ a, a.priority = p ∧ RequiresTrans rules a a

/-- The rules considered, in order (those whose `enabled` was called). -/
def considered (trace : List RuleEvent) : List RuleRef := trace.filterMap (fun e => match e with | .enabled r => some r | _ => none)

/-- No `when` and no `then` raises. -/
def NeverRaises {σ ρ : Type} (b : Behaviour σ ρ) : Prop := (∀ s s' e, b.when_ s ≠ (s', .error e)) ∧ ∀ s a s' e, b.then_ s a ≠ (s', some e)

/-- What running the rules in this order does to the state, which calls are made, what is reported and which exception comes out:
a disabled rule does nothing; an enabled rule is asked; with a falsy answer that is all, otherwise its consequence is run and its answer
reported; an exception of a rule ends the run. -/
inductive Executes {σ ρ : Type} (truthy : ρ → Bool) (beh : RuleRef → Behaviour σ ρ) :
    List RuleRef → σ → σ → List RuleEvent → List (RuleRef × ρ) → Option PyErr → Prop where
  | done (s : σ) : Executes truthy beh [] s s [] [] none
  | disabled {r rest s s' tr ret e} : (beh r).enabled s = false → Executes truthy beh rest s s' tr ret e →
      Executes truthy beh (r :: rest) s s' (.enabled r :: tr) ret e
  | quiet {r rest s s1 s' tr ret e a} : (beh r).enabled s = true → (beh r).when_ s = (s1, .ok a) → truthy a = false →
      Executes truthy beh rest s1 s' tr ret e → Executes truthy beh (r :: rest) s s' (.enabled r :: .when_ r :: tr) ret e
  | fires {r rest s s1 s2 s' tr ret e a} : (beh r).enabled s = true → (beh r).when_ s = (s1, .ok a) → truthy a = true →
      (beh r).then_ s1 a = (s2, none) → Executes truthy beh rest s2 s' tr ret e →
      Executes truthy beh (r :: rest) s s' (.enabled r :: .when_ r :: .then_ r :: tr) ((r, a) :: ret) e
  | whenRaises {r rest s s1 e} : (beh r).enabled s = true → (beh r).when_ s = (s1, .error e) →
      Executes truthy beh (r :: rest) s s1 [.enabled r, .when_ r] [] (some e)
  | thenRaises {r rest s s1 s2 e a} : (beh r).enabled s = true → (beh r).when_ s = (s1, .ok a) → truthy a = true →
      (beh r).then_ s1 a = (s2, some e) → Executes truthy beh (r :: rest) s s2 [.enabled r, .when_ r, .then_ r] [] (some e)

/-- `x` comes before `y` in `l`. -/
def Before {α : Type} (l : List α) (x y : α) : Prop := ∃ i j : Nat, i < j ∧ l[i]? = some x ∧ l[j]? = some y

/-- The rules of priority `p` can be ordered. -/
def FineAt (rules : List RuleInfo) (p : Int) : Prop := ¬ DuplicatesAt rules p ∧ ¬ CyclicAt rules p

/-- The rules `C59` promises: no consequence of a rule comes before the condition of a rule of the same priority. -/
def WhensFirst (rules : List RuleInfo) (trace : List RuleEvent) : Prop :=
  ∀ a ∈ rules, ∀ b ∈ rules, a.priority = b.priority → ¬ Before trace (.then_ a.ref) (.when_ b.ref)

end Rebulk.Spec
