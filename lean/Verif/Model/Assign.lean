import Verif.Model.Consequences
/-!
# Assigning to attributes of matches while a container holds them

Matches are objects: a store gives the attributes every match object has now, the container refers to the objects. `start`, `end`, `name`, `tags`,
`private`, `formatter` are plain attributes (`match.py:1029-1056`), `value`, `raw_start` and `raw_end` have setters (`match.py:1085-1093`,
`1133-1139`, `1153-1159`). None of them tells the container. Assigning to `tags` gives the match a list of its own; changes made inside a tag
list that several matches share are the subject of `Model/Consequences.lean`. `marker`, `parent` and `children` are not assigned to here.
-/
namespace Rebulk

/-- An assignment to an attribute. -/
inductive Attr where
  | name (n : Option String)
  | tags (l : List String)
  | start (i : Int)
  | stop (i : Int)
  | value (v : Val)
  | rawStart (i : Option Int)
  | rawStop (i : Option Int)
  | priv (b : Bool)
  | formatter (f : Option (Val → Val))

/-- The object after the assignment (`match.py:1029-1056`, setters `1085-1093`, `1133-1139`, `1153-1159`). -/
def Attr.assign : Attr → Match → Match
  | .name n, m => { m with name := n }
  | .tags l, m => { m with tags := l }
  | .start i, m => { m with start := i }
  | .stop i, m => { m with stop := i }
  | .value v, m => { m with lit := v }
  | .rawStart i, m => { m with rawStart := i }
  | .rawStop i, m => { m with rawStop := i }
  | .priv b, m => { m with priv := b }
  | .formatter f, m => { m with formatter := f }

/-- The call with the matches given to it as they are now: the arguments are objects. -/
def Matches.Op.now (objs : Nat → Match) : Matches.Op → Matches.Op
  | .append m => .append (objs m.id)
  | .insert i m => .insert i (objs m.id)
  | .extend ms => .extend (ms.map (fun m => objs m.id))
  | .remove m => .remove (objs m.id)
  | .setItem i m => .setItem i (objs m.id)
  | .previous m => .previous (objs m.id)
  | .next m => .next (objs m.id)
  | .conflicting m => .conflicting (objs m.id)
  | .pop i => .pop i
  | .delItem i => .delItem i
  | .clear => .clear
  | .delSlice a b => .delSlice a b
  | .reverse => .reverse
  | .named ns => .named ns
  | .tagged t => .tagged t
  | .starting i => .starting i
  | .ending i => .ending i
  | .atIndex i => .atIndex i
  | .names => .names
  | .tags => .tags
  | .atSpan a b => .atSpan a b
  | .chainBefore p sp st pr => .chainBefore p sp st pr
  | .chainAfter p sp st pr => .chainAfter p sp st pr
  | .holes a b ig sp => .holes a b ig sp

/-- The match objects with their attributes, and a container. -/
structure ObjDesk where
  objs : Nat → Match
  cont : Matches

/-- What a user does: a call on the container, or an assignment to an attribute of the match object `id`. -/
inductive Act where
  | call (op : Matches.Op)
  | set (id : Nat) (a : Attr)

/-- One act: an assignment changes the object wherever it is held, and nothing else (the container files it under the old keys). -/
def ObjDesk.act (d : ObjDesk) : Act → ObjDesk × Matches.Out
  | .call op => let r := d.cont.step (op.now d.objs); ({ d with cont := r.1 }, r.2)
  | .set id a => ({ objs := fun i => if i = id then a.assign (d.objs i) else d.objs i,
                    cont := d.cont.change (fun m => m.id == id) a.assign }, .unit)

/-- Acts one after the other. -/
def ObjDesk.run (d : ObjDesk) (acts : List Act) : ObjDesk := acts.foldl (fun d a => (d.act a).1) d

end Rebulk
