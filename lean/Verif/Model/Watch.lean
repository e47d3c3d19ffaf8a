import Verif.Model.Animate
import Verif.Model.TransformCache
/-!
What the rest of a program hears of assignments: the signals `('set', field)` and `('route', field)` that a field sends.
The cache of matrices (Model/TransformCache) is one of the listeners.
Models /repo/vrml/route.py:72-107, /repo/vrml/field.py:108-127 (as Model/FullRead `forward` and Model/Animate `assign`, with the signals), and a program that
loads a scene, assigns fields and asks for matrices (/repo/vrml/vrml97/basenodes.py:575-614, /repo/vrml/vrml97/nodepath.py:34-99).
Signals of events (field.py:394-407) are left out: nothing but ROUTEs listens to them in the library.
-/
namespace Verif.Full
open Verif.TextOut
open Verif.Lin hiding disp dispList dispDecls dispAttrs
variable {F : Type}

/-- A signal that field `field` of node `node` sends.  `stored` is what the field has just stored (`none`: it refused the value, route.py:95-96, and
the signal is sent all the same, 102-107). -/
structure Note (F : Type) where
  node : Nat
  field : Text
  stored : Option (Val F)

/-- `forward` (Model/FullRead) with the signals, in the order in which they are sent (after those in `log`): route.py:72-107, the signal is sent after
storing (91-96, 102-107), and the connections of the field are among its receivers. -/
def forwardS : Nat → List (Note F) → List (Nat × Text) → World F → Nat → Text → Option (Val F) → Option (List (Note F) × List (Nat × Text) × World F)
  | 0, _, _, _, _, _, _ => none
  | fuel + 1, log, vis, w, i, f, v =>
    match (w.heap i).bind (fun n => n.cls.getField f) with
    | none => none
    | some (.inl d) =>
      if (i, d.name) ∈ vis then some (log, vis, w)
      else match w.take d v with
        | none => none
        | some u =>
          (w.out i d.name).foldlM (fun (p : List (Note F) × List (Nat × Text) × World F) x => forwardS fuel p.1 p.2.1 p.2.2 x.dst x.dstField (u.or v))
            (log ++ [⟨i, d.name, u⟩], (i, d.name) :: vis, match u with
              | some u => w.setField i d.name u
              | none => w)
    | some (.inr e) =>
      if (i, e.name) ∈ vis then some (log, vis, w)
      else match (w.out i e.name).foldlM (fun (p : List (Note F) × World F) x => (forwardS fuel p.1 [] p.2 x.dst x.dstField v).map (fun q => (q.1, q.2.2))) (log, w) with
        | none => none
        | some (log', w') =>
          (w.out i e.name).foldlM (fun (p : List (Note F) × List (Nat × Text) × World F) x => forwardS fuel p.1 p.2.1 p.2.2 x.dst x.dstField none) (log', (i, e.name) :: vis, w')

/-- `World.spread` with the signals. -/
def World.spreadS (log : List (Note F)) (w : World F) (i : Nat) (f : Text) (v : Val F) : Option (List (Note F) × World F) :=
  (w.out i f).foldlM (fun (p : List (Note F) × World F) x => (forwardS w.depth p.1 [] p.2 x.dst x.dstField (some v)).map (fun q => (q.1, q.2.2))) (log, w)

/-- `node.f = value` (`World.assign`) with the signals: field.py:108-116 sends ('set', field) after storing. -/
def World.assignS (w : World F) (i : Nat) (f : Text) (v : Val F) : Option (List (Note F) × World F) :=
  match (w.heap i).bind (fun n => n.cls.port f) with
  | none => none
  | some (.inl d) => match w.take d (some v) with
    | some (some u) => (w.setField i d.name u).spreadS [⟨i, d.name, some u⟩] i d.name u
    | _ => none
  | some (.inr e) => w.spreadS [] i e.name v

/-! ### A program that animates a scene and asks for matrices -/

/-- The number that Model/TransformCache gives a field of a Transform (basenodes.py:597-605); all other fields together are 5. -/
def fieldNo (g : Text) : Nat :=
  if g = chars "translation" then 0 else if g = chars "center" then 1 else if g = chars "scale" then 2
  else if g = chars "scaleOrientation" then 3 else if g = chars "rotation" then 4 else 5

/-- What the program does. -/
inductive Act (F M : Type) where
  /-- `node.f = value` -/
  | assign (i : Nat) (f : Text) (v : Val F)
  /-- `node.localMatrices(...)` -/
  | ask (i : Nat) (fl : TCache.Flags)
  /-- `NodePath(nodes)` -/
  | path (nodes : List Nat)
  /-- `path.transformMatrix(...)`; `p` counts nodes and paths in the order in which they were created -/
  | askPath (p : Nat) (inverse : Bool) (fl : TCache.Flags)
  /-- an unset field is read, which stores the default without a signal (field.py:49-60) -/
  | read (i : Nat) (f : Text)
  /-- any other use of the cache -/
  | other (o : Cache.Op TCache.Key (TCache.Dat M))

/-- The scene, and the histories of the cache. -/
structure Live (F M : Type) where
  world : World F
  evs : List (TCache.Ev (Val F) M)

/-- What the cache hears of a signal. -/
def heard {M : Type} (n : Note F) : TCache.Ev (Val F) M :=
  match n.stored with
  | some u => .change n.node (fieldNo n.field) (some u)
  | none => .other (.fire n.node (fieldNo n.field))

/-- After loading: the nodes exist and have the values read (nothing is cached yet, so the signals that the reader sends or does not send do not matter);
`isT` says which of them are Transforms. -/
def Live.load {M : Type} (isT : Nat → Bool) (w : World F) : Live F M :=
  ⟨w, (List.range w.next).map (fun i => .newNode i (isT i)) ++
    (List.range w.next).flatMap (fun i => [chars "translation", chars "center", chars "scale", chars "scaleOrientation", chars "rotation"].map
      (fun g => .change i (fieldNo g) ((w.heap i).bind (fun n => n.dict g))))⟩

/-- One action; `none`: an exception.  New paths get an address that no living object has. -/
def Live.act {M : Type} (s : Live F M) : Act F M → Option (Live F M)
  | .assign i f v => (s.world.assignS i f v).map (fun p => ⟨p.2, s.evs ++ p.1.map heard⟩)
  | .ask i fl => some { s with evs := s.evs ++ [.askLocal i fl] }
  | .path l => some { s with evs := s.evs ++ [.newPath (s.world.next + s.evs.length) l] }
  | .askPath p inverse fl => some { s with evs := s.evs ++ [.askPath p inverse fl] }
  | .read i f => some { s with evs := s.evs ++ [.readDefault i (fieldNo f)] }
  | .other o => some { s with evs := s.evs ++ [.other o] }

/-- The program. -/
def Live.run {M : Type} (s : Live F M) (l : List (Act F M)) : Option (Live F M) := l.foldlM Live.act s

end Verif.Full
