/-
Model of event routing: vrml/route.py ROUTE._forward (72-107), ROUTE._bind (42-60), IS (138-166),
vrml/event.py Event.visited, vrml/field.py BaseField.fset/__set__ and Event.__set__ (394-407).

A port is one (node, field object) pair, numbered; a network is the list of routes (source port, destination
port) in creation order (= connection order, the order in which the dispatcher calls them), which ports are
event ports, and each field's coercion.  An IS mapping contributes two routes, one in each direction.
Simplifications: every route is bound and its destination resolves (NULL routes only print; a name that does not
resolve raises); coercions raise nothing but ValueError/TypeError, which `_forward` catches (95-96); no
`on_NAME` methods and no receivers other than routes.
Recursion depth is a parameter (`fuel`), `none` means the depth was not enough: Python would recurse deeper.
-/
namespace Verif.Route

/-- A route network. -/
structure Net (V : Type) where
  routes : List (Nat × Nat)
  isEvent : Nat → Bool
  coerce : Nat → V → Option V
  noneVal : V

/-- One delivery to a port: the value passed on, and whether it was stored (a rejected value is not). -/
structure Delivery (V : Type) where
  port : Nat
  value : V
  stored : Bool
  deriving DecidableEq, Repr

/-- Stored values of all ports and the deliveries made so far. -/
structure St (V : Type) where
  store : Nat → Option V
  log : List (Delivery V)

variable {V : Type}

/-- The destinations of the routes bound to port `p`, in connection order. -/
def Net.out (N : Net V) (p : Nat) : List Nat := (N.routes.filter (fun r => r.1 == p)).map Prod.snd

/-- Store a value and record the delivery. -/
def St.accept (s : St V) (p : Nat) (v : V) : St V :=
  { store := fun q => if q = p then some v else s.store q, log := s.log ++ [⟨p, v, true⟩] }

/-- A value the field rejected: nothing is stored, the traceback is printed. -/
def St.reject (s : St V) (p : Nat) (v : V) : St V := { s with log := s.log ++ [⟨p, v, false⟩] }

/-- route.py:72-107 `_forward` towards `dst` with value `v`; `vis` is the event's visited table (event.py). -/
def forward (N : Net V) : Nat → List Nat → St V → Nat → V → Option (List Nat × St V)
  | 0, _, _, _, _ => none
  | fuel + 1, vis, s, dst, v =>
    -- 87-91: short-circuit, then mark
    if dst ∈ vis then some (vis, s)
    else
      let vis := dst :: vis
      if N.isEvent dst then
        -- 97-99: Event.__set__ stores, sends ('set', evt) without an event object, and returns None
        let s1 := s.accept dst v
        match (N.out dst).foldlM (fun s d => (forward N fuel [] s d v).map Prod.snd) s1 with
        | none => none
        | some s2 =>
          -- 102-107: then ('route', evt) with value None
          (N.out dst).foldlM (fun (p : List Nat × St V) d => forward N fuel p.1 p.2 d N.noneVal) (vis, s2)
      else
        -- 92-96: fset(notify=0); a rejected value is kept as it was
        match N.coerce dst v with
        | some w =>
          (N.out dst).foldlM (fun (p : List Nat × St V) d => forward N fuel p.1 p.2 d w) (vis, s.accept dst w)
        | none =>
          (N.out dst).foldlM (fun (p : List Nat × St V) d => forward N fuel p.1 p.2 d v) (vis, s.reject dst v)

/-- A program sets port `p` (field.py:108-116 / 394-407): coerce and store, then ('set', port) is sent without an
event object, so every route bound to `p` starts its own event (route.py:79-81). -/
def setPort (N : Net V) (fuel : Nat) (s : St V) (p : Nat) (v : V) : Option (St V) :=
  match (if N.isEvent p then some v else N.coerce p v) with
  | none => some s                                           -- ValueError, nothing happens
  | some w =>
    let s1 : St V := { s with store := fun q => if q = p then some w else s.store q }
    (N.out p).foldlM (fun s d => (forward N fuel [] s d w).map Prod.snd) s1

end Verif.Route
