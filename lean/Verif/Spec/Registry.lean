import Verif.Model.Registry
import Verif.Spec.Rebulk
/-!
# Specification of registration: what a history of calls says an object is

Everything is stated on the history alone (the calls, each with what it returned).
-/
namespace Rebulk.Spec
variable {Ctx : Type}

/-- A call and what it returned. -/
abbrev Event (Ctx : Type) := ROp Ctx × RRet
/-- A history. -/
abbrev History (Ctx : Type) := List (Event Ctx)

/-- The event makes `r`, or resets it. -/
def starts (r : Nat) : Event Ctx → Bool
  | (.new _ _, .rebulk r') => r' == r
  | (.reset r', _) => r' == r
  | _ => false

/-- What happened after the last event that is as `p` says. -/
def afterLast (p : Event Ctx → Bool) (h : History Ctx) : History Ctx := (h.reverse.takeWhile (fun e => !p e)).reverse

/-- What happened to `r` since it was made or last reset. -/
def life (r : Nat) (h : History Ctx) : History Ctx := afterLast (starts r) h

/-- The patterns the event registers on `r`. -/
def registers (r : Nat) : Event Ctx → List (PRef Ctx)
  | (.pattern r' ps, _) => if r' = r then ps else []
  | (.chain r' _, .builder c) => if r' = r then [.chain c] else []
  | _ => []

/-- The arguments the event gives to `r.rules`. -/
def loads (r : Nat) : Event Ctx → List (List RuleArg)
  | (.rules r' args, _) => if r' = r then [args] else []
  | _ => []

/-- The objects the event attaches to `r`. -/
def attaches (r : Nat) : Event Ctx → List Nat
  | (.rebulk r' rs, _) => if r' = r then rs else []
  | _ => []

/-- The keys the event declares on `r`. -/
def declares (r : Nat) : Event Ctx → List Key
  | (.declareKeys r' ks, _) => if r' = r then ks else []
  | _ => []

/-- The patterns the event adds to the chain `c`. -/
def addsTo (c : Nat) : Event Ctx → List (PRef Ctx)
  | (.add c' p, _) => if c' = c then [.leaf p] else []
  | (.partAdd c' _ p, _) => if c' = c then [.leaf p] else []
  | (.nest c' _, .builder d) => if c' = c then [.chain d] else []
  | (.partChain c' _ _, .builder d) => if c' = c then [.chain d] else []
  | _ => []

/-- The argument the event gives to `repeater` of the part `k` of `c`. -/
def repeats (c k : Nat) : Event Ctx → List RepeaterArg
  | (.repeater c' k' v, _) => if c' = c ∧ k' = k then [v] else []
  | _ => []

/-- The argument the event gives to `hidden` of the part `k` of `c`. -/
def hides (c k : Nat) : Event Ctx → List Bool
  | (.hidden c' k' b, _) => if c' = c ∧ k' = k then [b] else []
  | _ => []

/-- The event opens the chain `c` with these arguments. -/
def opens (c : Nat) : Event Ctx → List (ChainArgs Ctx)
  | (.chain _ args, .builder c') => if c' = c then [args] else []
  | (.nest _ args, .builder c') => if c' = c then [args] else []
  | (.partChain _ _ args, .builder c') => if c' = c then [args] else []
  | _ => []

/-- A part nobody said anything about, after these calls of `repeater`. (`C50` says what one call does.) -/
def repeatedPart (calls : List RepeaterArg) : Part := calls.foldl (fun p v => p.repeater v) { search := fun _ => .ok ([], []) }

/-- The last element, or `d`. -/
def lastOr {α : Type} (d : α) (l : List α) : α := l.getLast?.getD d

/-- The elements of two lists of the same length are related one by one. -/
inductive Each {α β : Type} (R : α → β → Prop) : List α → List β → Prop where
  | nil : Each R [] []
  | cons {a b as bs} : R a b → Each R as bs → Each R (a :: as) (b :: bs)

mutual
/-- A pattern object is what the history says of a registered pattern: a chain has the parts added to it, in order, each with its repeater and hidden as
last told. -/
inductive Depicts (h : History Ctx) : PRef Ctx → PatternObj Ctx → Prop where
  | leaf {p} : Depicts h (.leaf p) p
  | chain {c args parts} : h.flatMap (opens c) = [args] → DepictsParts h c 0 (h.flatMap (addsTo c)) parts →
      Depicts h (.chain c) (.chain args.info args.base args.breaker parts)
/-- The parts of `c` from the `k`-th on. -/
inductive DepictsParts (h : History Ctx) : Nat → Nat → List (PRef Ctx) → PartObjs Ctx → Prop where
  | nil {c k} : DepictsParts h c k [] .nil
  | cons {c k r rs p ps} : Depicts h r p → DepictsParts h c (k + 1) rs ps →
      DepictsParts h c k (r :: rs) (.cons p (repeatedPart (h.flatMap (repeats c k))).start (repeatedPart (h.flatMap (repeats c k))).stop
        (lastOr false (h.flatMap (hides c k))) ps)
end

/-- How `r` was made or last reset: its `disabled` function and whether it has the default rules. `reset()` is `Rebulk()`. -/
def startOf (r : Nat) (h : History Ctx) : Option ((Ctx → Bool) × Bool) :=
  match h.reverse.find? (starts r) with
  | some (.new disabled dr, _) => some (disabled, dr)
  | some (.reset _, _) => some (fun _ => false, true)
  | _ => none

/-- The rule objects loaded by these calls of `rules()`, one after the other. (`C88` says what one call loads.) -/
def loaded (calls : List (List RuleArg)) : List RuleObj := calls.flatMap (fun args => (loadRules args []).1)

/-- `x` is what the history says of `r`, its children left out. -/
structure DepictsAlone (h : History Ctx) (r : Nat) (x : RebulkObj Ctx) : Prop where
  start : ∃ dr a, startOf r h = some (x.disabled, dr) ∧
    x.rules = (if dr then [conflictSolverRule a, privateRemoverRule (a + 1)] else []) ++ loaded ((life r h).flatMap (loads r))
  patterns : Each (Depicts h) ((life r h).flatMap (registers r)) x.patterns
  keys : ∀ n, x.keys.get? n = (((life r h).flatMap (declares r)).filter (fun k => k.name == n)).getLast?

/-- `x` is what the history says of `r`. -/
structure DepictsRebulk (h : History Ctx) (r : Nat) (x : RebulkObj Ctx) : Prop where
  alone : DepictsAlone h r x
  children : Each (DepictsAlone h) ((life r h).flatMap (attaches r)) x.children

/-- The chain `c` was opened on `r`: directly, or under a chain opened on `r`. -/
inductive OpenedOn (h : History Ctx) : Nat → Nat → Prop where
  | direct {r c args} : (ROp.chain r args, RRet.builder c) ∈ h → OpenedOn h c r
  | nested {r c d args} : (ROp.nest d args, RRet.builder c) ∈ h → OpenedOn h d r → OpenedOn h c r
  | ofPart {r c d k args} : (ROp.partChain d k args, RRet.builder c) ∈ h → OpenedOn h d r → OpenedOn h c r

/-- What a call returns after the history `h`: a new object for `Rebulk()`, a new builder for `chain()`, the part just added for the calls that add one (it is
the last of its chain), the part itself for the calls that set it up, the `Rebulk` object itself for the others, unless the rules cannot be made. What `close()`
returns is in `OpenedOn`. -/
def ReturnsRight (h : History Ctx) : ROp Ctx → RRet → Prop
  | .new _ _, ret => ∃ r, ret = .rebulk r ∧ ∀ d b, (ROp.new d b, RRet.rebulk r) ∉ h
  | .pattern r _, ret => ret = .rebulk r
  | .rules r args, ret => (∃ e, (loadRules args []).2 = some e ∧ ret = .raised e) ∨ (loadRules args []).2 = none ∧ ret = .rebulk r
  | .rebulk r _, ret => ret = .rebulk r
  | .declareKeys r _, ret => ret = .rebulk r
  | .chain _ _, ret => ∃ c, ret = .builder c ∧ ∀ e ∈ h, opens c e = []
  | .reset _, ret => ret = .nothing
  | .add c _, ret => ret = .part c (h.flatMap (addsTo c)).length
  | .nest _ _, ret => ∃ c, ret = .builder c ∧ ∀ e ∈ h, opens c e = []
  | .close c, ret => ∃ r, ret = .rebulk r ∧ OpenedOn h c r
  | .partAdd c _ _, ret => ret = .part c (h.flatMap (addsTo c)).length
  | .partChain _ _ _, ret => ∃ c, ret = .builder c ∧ ∀ e ∈ h, opens c e = []
  | .repeater c k _, ret => ret = .part c k
  | .hidden c k _, ret => ret = .part c k
  | .partClose c _, ret => ∃ r, ret = .rebulk r ∧ OpenedOn h c r

end Rebulk.Spec
