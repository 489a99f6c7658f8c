import Verif.Model.Rebulk
/-!
# Registration: what the calls on `Rebulk`, `ChainBuilder` and `ChainPart` objects build

Objects are held by reference (a `Rebulk` added to another one, a chain being assembled, a part). An address is an index: of a `Rebulk` object, of a
chain (with its `ChainBuilder`, made together), of a part in its chain. The keyword arguments of patterns are in `Model/Builder.lean`; here a
pattern that is not a chain is given whole.
-/
namespace Rebulk
variable {Ctx : Type}

/-- A pattern as registered: a string, regular expression or functional pattern (or any pattern object made elsewhere), or a chain being assembled. -/
inductive PRef (Ctx : Type) where
  | leaf (p : PatternObj Ctx)
  | chain (c : Nat)

/-- A `ChainPart` (`chain.py:224-229`). -/
structure PartRec (Ctx : Type) where
  pattern : PRef Ctx
  start : Int := 1
  stop : Option Int := some 1
  hidden : Bool := false

/-- `ChainBuilder._parent` (`builder.py:291`): a `Rebulk` or the `ChainBuilder` of another chain. -/
inductive Owner where
  | rebulk (r : Nat)
  | chain (c : Nat)
  deriving DecidableEq

/-- What `Chain(**kwargs)` is made of (`chain.py:37-50`). -/
structure ChainArgs (Ctx : Type) where
  info : PatternInfo Ctx
  base : Pattern
  breaker : Option (List MTree → Bool)

/-- A `Chain` (`chain.py:37-50`) with its `ChainBuilder` (`builder.py:289-292`). -/
structure ChainRec (Ctx : Type) where
  parent : Owner
  args : ChainArgs Ctx
  parts : List (PartRec Ctx) := []

/-- A `Rebulk` object (`rebulk.py:95-104`); `rebulks` are addresses. -/
structure RObj (Ctx : Type) where
  disabled : Ctx → Bool
  patterns : List (PRef Ctx) := []
  rules : List RuleObj := []
  keys : Dict String Key := []
  rebulks : List Nat := []

/-- All objects. `nextRule` numbers the rule objects made. -/
structure Reg (Ctx : Type) where
  rebulks : List (RObj Ctx) := []
  chains : List (ChainRec Ctx) := []
  nextRule : Nat := 0

/-- `Rebulk.__init__` (`rebulk.py:80-104`). -/
def RObj.init (disabled : Ctx → Bool) (defaultRules : Bool) (next : Nat) : RObj Ctx :=
  { disabled := disabled
    rules := if defaultRules then (loadRules [.class_ (.ok (conflictSolverRule next)), .class_ (.ok (privateRemoverRule (next + 1)))] []).1 else [] }

/-- `ChainBuilder._add` (`builder.py:302-305`): the part made, with its chain. -/
def ChainRec.add (ch : ChainRec Ctx) (p : PRef Ctx) : ChainRec Ctx := { ch with parts := ch.parts ++ [{ pattern := p }] }

/-- `ChainPart.repeater` (`chain.py:363-396`). -/
def PartRec.repeater (part : PartRec Ctx) (v : RepeaterArg) : PartRec Ctx :=
  let q := Part.repeater { search := fun _ => .ok ([], []), start := part.start, stop := part.stop } v
  { part with start := q.start, stop := q.stop }

/-- The loop of `ChainBuilder.close` (`builder.py:339-342`); `none` when it takes more than `fuel` steps. -/
def closeFrom (chains : List (ChainRec Ctx)) : Nat → Owner → Option Nat
  | _, .rebulk r => some r
  | 0, .chain _ => none
  | fuel + 1, .chain c => match chains[c]? with
    | none => none
    | some ch => closeFrom chains fuel ch.parent

/-- A call. `r` is a `Rebulk`, `c` a chain builder, `(c, k)` a part. -/
inductive ROp (Ctx : Type) where
  /-- `Rebulk(disabled, default_rules)` (`rebulk.py:80`); a `disabled` that is not callable is a constant function (`rebulk.py:96-99`). -/
  | new (disabled : Ctx → Bool) (defaultRules : Bool)
  /-- `r.pattern(*ps)` (`rebulk.py:106-116`); `r.string(..)`, `r.regex(..)`, `r.functional(..)` register the one pattern they build (`builder.py:230-264`). -/
  | pattern (r : Nat) (ps : List (PRef Ctx))
  /-- `r.rules(*args)` (`rebulk.py:118-126`). -/
  | rules (r : Nat) (args : List RuleArg)
  /-- `r.rebulk(*rs)` (`rebulk.py:128-136`). -/
  | rebulk (r : Nat) (rs : List Nat)
  /-- `r.declare_keys(*keys)` (`builder.py:101-114`). -/
  | declareKeys (r : Nat) (keys : List Key)
  /-- `r.chain(**kwargs)` (`builder.py:266-277`). -/
  | chain (r : Nat) (args : ChainArgs Ctx)
  /-- `r.reset()` (`builder.py:216-220`). -/
  | reset (r : Nat)
  /-- `c.string(..)`, `c.regex(..)`, `c.functional(..)` (`builder.py:307-323`). -/
  | add (c : Nat) (p : PatternObj Ctx)
  /-- `c.chain(**kwargs)` (`builder.py:325-333`). -/
  | nest (c : Nat) (args : ChainArgs Ctx)
  /-- `c.close()` (`builder.py:335-342`). -/
  | close (c : Nat)
  /-- `part.string(..)`, `part.regex(..)`, `part.functional(..)` (`chain.py:336-352`). -/
  | partAdd (c k : Nat) (p : PatternObj Ctx)
  /-- `part.chain()` (`chain.py:309-313`), with the arguments of the chain built from the defaults. -/
  | partChain (c k : Nat) (args : ChainArgs Ctx)
  /-- `part.repeater(v)` (`chain.py:363-396`). -/
  | repeater (c k : Nat) (v : RepeaterArg)
  /-- `part.hidden(b)` (`chain.py:315-325`). -/
  | hidden (c k : Nat) (b : Bool)
  /-- `part.close()` (`chain.py:354-361`). -/
  | partClose (c k : Nat)

/-- What a call returns. -/
inductive RRet where
  | rebulk (r : Nat)
  | builder (c : Nat)
  | part (c k : Nat)
  | nothing
  | raised (e : PyErr)
  deriving DecidableEq

namespace Reg

/-- Change a `Rebulk` object. -/
def setRebulk (reg : Reg Ctx) (r : Nat) (o : RObj Ctx) : Reg Ctx := { reg with rebulks := reg.rebulks.set r o }
/-- Change a chain. -/
def setChain (reg : Reg Ctx) (c : Nat) (ch : ChainRec Ctx) : Reg Ctx := { reg with chains := reg.chains.set c ch }

/-- `ChainBuilder.string` and so on: the part is returned (`builder.py:307-323`). -/
def addPart (reg : Reg Ctx) (c : Nat) (p : PatternObj Ctx) : Option (Reg Ctx × RRet) :=
  match reg.chains[c]? with
  | none => none
  | some ch => some (reg.setChain c (ch.add (.leaf p)), .part c ch.parts.length)

/-- `ChainBuilder.chain` (`builder.py:325-333`): a part of `c` for the new chain, and the builder of the new chain. -/
def nestChain (reg : Reg Ctx) (c : Nat) (args : ChainArgs Ctx) : Option (Reg Ctx × RRet) :=
  match reg.chains[c]? with
  | none => none
  | some ch =>
    let d := reg.chains.length
    some ({ reg with chains := reg.chains.set c (ch.add (.chain d)) ++ [{ parent := .chain c, args := args }] }, .builder d)

/-- `ChainBuilder.close` (`builder.py:335-342`). -/
def closeChain (reg : Reg Ctx) (c : Nat) : Option (Reg Ctx × RRet) :=
  match reg.chains[c]? with
  | none => none
  | some ch => (closeFrom reg.chains reg.chains.length ch.parent).map (fun r => (reg, .rebulk r))

/-- A change of one part, which is returned. -/
def changePart (reg : Reg Ctx) (c k : Nat) (f : PartRec Ctx → PartRec Ctx) : Option (Reg Ctx × RRet) :=
  match reg.chains[c]? with
  | none => none
  | some ch => match ch.parts[k]? with
    | none => none
    | some p => some (reg.setChain c { ch with parts := ch.parts.set k (f p) }, .part c k)

/-- A call on a `Rebulk` object. -/
def onRebulk (reg : Reg Ctx) (r : Nat) (f : RObj Ctx → Reg Ctx × RRet) : Option (Reg Ctx × RRet) :=
  match reg.rebulks[r]? with
  | none => none
  | some o => some (f o)

/-- The builder a part belongs to (`chain.py:225`, `231-233`), if there is such a part. -/
def hasPart (reg : Reg Ctx) (c k : Nat) : Bool :=
  match reg.chains[c]? with
  | none => false
  | some ch => decide (k < ch.parts.length)

/-- There is such a pattern. -/
def exists_ (reg : Reg Ctx) : PRef Ctx → Bool
  | .leaf _ => true
  | .chain c => decide (c < reg.chains.length)

/-- One call: the objects after it, and what it returns; `none` when there is no such object. -/
def step (reg : Reg Ctx) : ROp Ctx → Option (Reg Ctx × RRet)
  | .new disabled dr =>
    some ({ reg with rebulks := reg.rebulks ++ [RObj.init disabled dr reg.nextRule], nextRule := reg.nextRule + 2 }, .rebulk reg.rebulks.length)
  | .pattern r ps =>
    if ps.all reg.exists_ then reg.onRebulk r (fun o => (reg.setRebulk r { o with patterns := o.patterns ++ ps }, .rebulk r)) else none
  | .rules r args => reg.onRebulk r (fun o =>
      let x := loadRules args o.rules
      (reg.setRebulk r { o with rules := x.1 }, match x.2 with | some e => .raised e | none => .rebulk r))
  | .rebulk r rs =>
    if rs.all (fun x => decide (x < reg.rebulks.length)) then
      reg.onRebulk r (fun o => (reg.setRebulk r { o with rebulks := o.rebulks ++ rs }, .rebulk r))
    else none
  | .declareKeys r ks => reg.onRebulk r (fun o => (reg.setRebulk r { o with keys := ks.foldl (fun d k => Dict.set d k.name k) o.keys }, .rebulk r))
  | .chain r args => reg.onRebulk r (fun o =>
      let c := reg.chains.length
      ({ reg.setRebulk r { o with patterns := o.patterns ++ [.chain c] } with chains := reg.chains ++ [{ parent := .rebulk r, args := args }] }, .builder c))
  | .reset r => reg.onRebulk r (fun _ =>
      ({ reg.setRebulk r (RObj.init (fun _ => false) true reg.nextRule) with nextRule := reg.nextRule + 2 }, .nothing))
  | .add c p => reg.addPart c p
  | .nest c args => reg.nestChain c args
  | .close c => reg.closeChain c
  | .partAdd c k p => if reg.hasPart c k then reg.addPart c p else none
  | .partChain c k args => if reg.hasPart c k then reg.nestChain c args else none
  | .repeater c k v => reg.changePart c k (fun p => p.repeater v)
  | .hidden c k b => reg.changePart c k (fun p => { p with hidden := b })
  | .partClose c k => if reg.hasPart c k then reg.closeChain c else none

/-- A sequence of calls, with what each of them returned. -/
def run : Reg Ctx → List (ROp Ctx) → Option (Reg Ctx × List (ROp Ctx × RRet))
  | reg, [] => some (reg, [])
  | reg, op :: ops => match reg.step op with
    | none => none
    | some (reg, ret) => match reg.run ops with
      | none => none
      | some (reg, log) => some (reg, (op, ret) :: log)

/-! ## What `matches` reads -/

/-- The parts of a chain (`chain.py:50`); `rd` reads a pattern. -/
def readParts (rd : PRef Ctx → Option (PatternObj Ctx)) : List (PartRec Ctx) → Option (PartObjs Ctx)
  | [] => some .nil
  | p :: ps => match rd p.pattern, readParts rd ps with
    | some q, some qs => some (.cons q p.start p.stop p.hidden qs)
    | _, _ => none

/-- A registered pattern as the object it is now; `none` when chains are nested deeper than `fuel`. -/
def read (reg : Reg Ctx) : Nat → PRef Ctx → Option (PatternObj Ctx)
  | _, .leaf p => some p
  | 0, .chain _ => none
  | fuel + 1, .chain c => match reg.chains[c]? with
    | none => none
    | some ch => (readParts (reg.read fuel) ch.parts).map (fun parts => .chain ch.args.info ch.args.base ch.args.breaker parts)

/-- A `Rebulk` object without its children. -/
def readAlone (reg : Reg Ctx) (r : Nat) : Option (RebulkObj Ctx) :=
  match reg.rebulks[r]? with
  | none => none
  | some o => (o.patterns.mapM (reg.read reg.chains.length)).map
      (fun ps => { disabled := o.disabled, patterns := ps, rules := o.rules, keys := o.keys, children := [] })

/-- A `Rebulk` object as `matches` reads it (`rebulk.py:138-165`): children of children are not looked at (`rebulk.py:177`, `194`, `261`). -/
def readRebulk (reg : Reg Ctx) (r : Nat) : Option (RebulkObj Ctx) :=
  match reg.rebulks[r]?, reg.readAlone r with
  | some o, some x => (o.rebulks.mapM reg.readAlone).map (fun cs => { x with children := cs })
  | _, _ => none

end Reg

end Rebulk
