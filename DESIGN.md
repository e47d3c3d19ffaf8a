# Formal model of pyvrml97 in Lean 4 — design

## 1. Layout

* `properties.jsonl` – the properties (generated by `tools/gen_properties.py`).
* `lean/Verif/Model/*.lean` – executable definitions that transcribe functions of `/repo`, each with a comment citing
  file and lines and naming every simplification.
* `lean/Verif/Spec/*.lean` – specifications that are too long to sit beside their theorem (what it means for a scene to
  survive writing and reading).  They mention neither writer nor reader.
* `lean/Verif/Props/*.lean` – small independent specifications and the property theorems (`C01_…` etc.), each followed by
  `example`s showing that concrete non-trivial cases meet the hypotheses.
* `lean/Verif/Lemmas/*.lean` – helper lemmas.
* `MANIFEST.json` – property → theorem names, status (generated by `tools/gen_manifest.py` from the theorem names).
* `seeded/LOG.jsonl` – mutation log (model edited like a realistic bug, which theorems failed).
* `tools/gen_css.py`, `tools/gen_builtins.py` – generate the CSS colour table (`Model/CssColors`) and the table of
  built-in node classes (`Model/BuiltinTable`) from the text of `/repo`; the generated modules are committed.

Names: a theorem `Cnn_…` belongs to property Cnn.  `Cnn_refuted_…` is a proof that a natural stronger reading of the property is
**false** of the code (with a witness); the property's English statement names that exclusion, and the positive theorems
cover everything else.  `…_partial` marks a theorem that covers only a part of the English property.

## 2. Trusted base

* Lean 4.33.0's kernel.
* Axioms: at most `propext`, `Classical.choice`, `Quot.sound` (Lean's standard three).  No axioms of our own, no
  compiled evaluation; closed finite tables are evaluated by the kernel (`decide +kernel`).
* The reading of `/repo` into the model.  The code was never run; every definition cites the lines it transcribes.
* Assumed behaviour of things outside the repository, each built into the model where it is used:
  Python `list`/`dict`/`set`/`str` operations (`Model/PyList`, `Model/PyDict`), stable `sorted`; pydispatcher (`send`
  calls every receiver connected to exactly that (signal, sender), in connection order, synchronously); weak
  references (callbacks run when the referent dies); SimpleParse's generator semantics (PEG: ordered choice, greedy
  repetition without backtracking, `!` = raise on failure, `-x` = one character where `x` does not match, `<x>` not
  reported, `>x<` children reported in place); numpy array arithmetic taken as exact real arithmetic in the matrix
  modules; Python's float `repr`/`float()` as parameters with the stated hypothesis wherever text meets floats.

### What is modelled
`vrml/field.py` and the accelerated field (`Model/Field`), `vrml/fieldtypes.py` coercions and text forms
(`Model/Coerce`, `Model/NodeCoerce`, `Model/TextOut`), `vrml/olist.py` (`Model/OList`), `vrml/weaklist.py`, `vrml/weakkeydictfix.py`, weak fields,
`vrml/cache.py`, `vrml/route.py` with field notification (`Model/Route`), `vrml/protofunctions.py` and `vrml/node.py` lookup,
construction, copying, root propagation, PROTO instantiation and IS links (`Model/Proto`, `Construct`, `Copy`, `Scene`, `RootEdit`), `vrml/_bytes.py` (`Model/Bytes`),
`vrml/vrml97/scenegraph.py` (DEF table, prototype lookup, adding routes), `vrml/vrml97/nodepath.py`,
`vrml/vrml97/transformmatrix.py` and its accelerated twin, `Transform.localMatrices`, `vrml/vrml97/parser.py` (the whole grammar as
data, `Model/Grammar`), `vrml/vrml200x/parser.py` (`Model/X3D`), `vrml/vrml97/parseprocessor.py` (`Model/ParseVal`, `Model/SceneRead`, `Model/ProtoText`, and all of it in one store in `Model/FullRead`), `vrml/vrml97/linearise.py`
(`Model/Lineariser`, `Model/ProtoText`), the declarations of all built-in nodes (`Model/BuiltinTable`), `vrml/arrays.py` safeCompare, frustum
culling (`accelerate` frustcullaccel, `Model/Frustum`), CSS colours.

### What is not modelled
Floating-point rounding (matrices and colours are over exact fields), numpy dtype conversion details, threads, file
I/O, loading of EXTERNPROTO files, Script execution, OpenGLContext, printing and logging, pickling, `weaktuple.py` (its constructor raises TypeError
on Python 3), Python 2 branches, Python's recursion limit.  The reader of the round-trip theorems (`Model/ProtoText`) refuses nested PROTO
declarations (the writer hoists them to the front of the file); the full reader (`Model/FullRead`) has them, EXTERNPROTOs, nodes
in interface defaults and the forwarding of values along IS (through events too) while reading; what a field makes of a value forwarded from a field of
another type is a parameter there.

## 3. Plan per property

| id | model | proof |
|---|---|---|
| C01 C06 | `Peg`, `Grammar`, `TextOut`, `ParseVal` | derivations built by induction on the written text; uniqueness from C08 determinism |
| C02 C04 C05 | the same, `Lemmas/ListText` | induction over the elements, chunks and rows |
| C03 | decimal text ↦ rational (spec), `SFFloat_vrmlstr` on characters | case analysis over repr shapes, denotation lemmas |
| C07 | `Grammar.ts`, `Reads`, `ReadsFile` | `Ignorable` as an inductive spec; both directions by induction. Whole files: `SameTokens` (Spec/Layout) relates texts that differ in layout only; a simulation over all derivations of the grammar (checked production by production), then trees that agree up to layout are dispatched alike. Assumes of `float()` only that it refuses text with a bracket, brace or `L` |
| C08 | PEG as an inductive relation with success / failure / error, fuelled interpreter | determinism by induction on derivations; totality by well-founded recursion on (length, rank), rank table checked by the kernel |
| C09 | `Lineariser`, `SceneRead`; `Spec/RoundTrip` | simulation: every chunk written has a derivation and an effect on the reader's state (invariant `Inv`), induction on depth fuel; DEF/USE by an injective partial map; PROTO layer in `ProtoText` |
| C10 | `Lineariser`, `Lemmas/Writer` | invariant on what has been written |
| C11 | `preroute` as a fold with the name search | pigeonhole (finite table), freshness invariant |
| C12–C17 | `Field`: heap of dictionaries, notification log; coercion a parameter | frame lemmas, induction on histories; C16 by simulation |
| C18–C23, C63 | `Coerce`: a Python value type, each `coerce` branch by branch; `NodeCoerce` | case analysis; C21 induction on a size measure; colour table by kernel evaluation |
| C24–C27 | `OList` with slice and index normalisation; `MFNode` | refinement to plain lists; counting |
| C28 C29 | `WeakList` with deaths as environment steps | invariants over interleavings |
| C30–C33 | `Cache`: dict of dicts keyed by id, connections, deaths, id reuse | refinement to a map; ownership invariant |
| C34 C35 | `TransformCache` over the cache, symbolic then real matrices | invariant: cached ⇒ equals recomputation |
| C36–C42 C60 C61 | `Matrix` over ℝ, Mathlib matrices | algebra, induction on paths |
| C43–C45 | `Route`: depth-first dispatch with visited set | measure on unvisited ports; reachability invariant |
| C46 C47 C62 | `Proto`: classes as linearised MRO with dictionaries | induction on name length / MRO |
| C48 C49 C54 | `Scene` | induction on histories, nesting, graphs |
| C50 C51 | `Copy` | heap simulation, copy memo invariant |
| C52 C53 C55 | `NodePath` | list induction |
| C56 C57 | `Lineariser` + `Grammar` | derivation of the syntax error; for whole scenes: bracket balance of the writer (an invariant over all writer states, with copied slices) against C72 / exact case analysis over keyword prefixes |
| C58 C59 | `BuiltinTable` | finite table evaluated by the kernel |
| C64 | `Frustum` | induction on planes; convexity for hulls and boxes |
| C65 C66 | `Construct` on `Field`, `Proto`, pydispatcher log | induction on arguments / histories |
| C69 | `SceneRead`, `ProtoText` | invariant of the reader's state (`RInv`) by induction on the size of the parse tree; names in trees are legal by induction on derivations |
| C70 | `X3D` (the grammar of vrml200x; its reader is the ParseProcessor of VRML97) | simulation of the VRML97 grammar by induction on derivations (`sim`): the same outcome, except that a parse with a list within a list becomes a syntax error; static checks (`Nm`) show that no reported vector is ever dropped by a later failure |
| C71 | Scripts in `Lineariser` (`linBegin`, `linDecls`) and `SceneRead` (`dispDecls`, `dispAttrs`) | declarations written inside the node: the simulation of C09 extended by the writer's state inside defaults; congruence of the writer for the refutations |
| C72 | `Grammar` with `Spec/Nesting` (modes and stack of open brackets) | induction on derivations: each expression has a fixed effect on the stack, checked for all productions; strings and `ts` by their own lemmas |
| C73 C74 | `FullRead`: the whole reader over one store of nodes, scenes and prototypes; `Spec/Scopes`: places in a file and what names denote there | the reader's run is a sequence of elementary steps in the order of the places (`Run`, by induction on the parse tree); store invariant `Inv` and agreement with the scope rules (`Agree`) by induction on the steps |
| C75 | `FullRead` (`forward`, `setAttr`, `bindIs`); `Spec/Links`: which fields are connected | forwarding is a depth-first search: the visited set grows inside the finite set of connection ends and is closed when it ends (`Lemmas/Forward`); the connections made for every IS mapping are kept by all reading steps (`Lemmas/Linked`) |
| C76 | `FullRead` against `SceneRead`/`ProtoText`; `Spec/Same`: a scene held in a larger store, nodes renumbered | simulation (`Lemmas/Refine*`): an increasing renumbering from the nodes of the single-scene reader into the store, preserved by every reading step; stores and forwarding outside the current scene only reach mapped fields of prototype bodies, so scenes and unmapped values stay; then composed with C67/C09 |
| C77 | `FullRead` (`dispProto`, `mkField`, `mkEvent`, `setURL`); `Spec/Interface`: the last declaration of each name, as written | reading anything else leaves the interface of every class in the store as it is (`Lemmas/Interface`, induction over the reader); the declarations are applied one by one, the last one of a name counts; the places of `Spec/Scopes` carry the interface, so that the prototype is the one that C73 speaks about |
| C78 | `FullRead` (everything); `Spec/Content`: the statements a file makes (`Tells…`, derived from the parse tree and the scopes alone), and when a store is what they say (`Content`) | each primitive of the reader has the effect its statements say (`Lemmas/Content2`: fields to which no connection leads keep their values when others are forwarded), effects compose (`Lemmas/Content`), induction over the reader (`Lemmas/Content4`, `Content5`); `Lemmas/Shape`: which entries the grammar puts where; `Lemmas/Wires`: every connection is from a ROUTE or IS |
| C79 | as C78 | the same induction; Scripts: declarations one by one against the last declaration of each name (`Lemmas/Content3`) |
| C80 | as C78 (`Model/FullRead.lean`) against the rules `Fine` of `Spec/Accept.lean`: inductive rules over the tree with the list of names given so far | `Sync`: the reader succeeds iff the rules derive, and the names known agree; mutual induction over the tree (`Lemmas/Accept{,2,3}`); names known in the file's scene are an invariant, `root` adds none that DEF has not added before. Found on the way: a ROUTE to a field that does not exist is let pass (the missing field shows only when a value is sent), an SFNode field reads only the first of several nodes, a Script declaration of a non-node type given nodes is let pass, and nodes given to an SFBool field (`solid Box {}` means TRUE) or a field of strings (which gets a text with the node's memory address) are let pass |
| C81 | `Model/Library.lean`: the classes of basenodes.py as `Class`es of the writer and reader, from the generated table; field types from `Coerce.fieldTypes`; floats abstract (`Num`) | the table facts (types known, defaults of the declared kind, names safe and distinct) by evaluation of the whole finite table in the kernel; the rest by cases on kinds, for all values; then C76; with Scripts `Props/LibraryScripts`. Found: a node list declared with the default `list` is always written (a list never equals an OList); the default family of FontStyle is a string where a list is stored, so it is always written, and broken |
| C82 | `Lin.coerce` with `Library.typeOf` against `Coerce.FT.coerce`, `Builtin.sfNode`, `mfNode`; `given` and `stored` (Props/Agree) translate values | by cases on field types, lists by induction (the fallback loop of MFColor over numbers that do not fill triples, and over nodes). Found on the way, and put into the reader's model: integers beyond 32 bits raise OverflowError; nodes given for SFBool are TRUE, for strings they become text |
| C83 | `Model/OneMatrix`: the three functions of transformmatrix.py that return one matrix or point, over the reals | the product formula of C38 and the points of C60; `center` by cases on the presence of matrices |
| C84 | `Model/Bytes`: _bytes.py on Python 3 with a strict UTF-8 codec on lists of numbers | decoding one character inverts encoding it and conversely (arithmetic, `omega`), then induction on texts |
| C85 | `Model/RootEdit`: assignments to node fields with their root update, on top of `rootSet` of `Model/Scene` | invariant over histories, with the reachability theorem of C54; completion by a rank |
| C86 | `Model/Route` with event ports anywhere | closure of the visited table (an event port on a cycle would be visited inside its own fresh event), induction on the number of event ports below for termination |
| C87 | `FullRead` (`forward` with events and rejected values, `setAttr`, `bindIs`); `Spec/Links`: `Onwards`, `LoopAt`, `DeadEnd`, `DoublyMapped` | as C86, on the reader's store; for files: the store before the instance satisfies the IS connections of `Lemmas/Linked`, `create` makes the cycle, and no attribute before the one in question removes a connection |
| C88 | `Lineariser` and `FullRead` together, over `Library` | the writer's state is related to the state of a second run by renaming node numbers (`Lemmas/SameText`: chunks, table of written nodes, level); fields of equal classes are visited in the same order, and a default without nodes compares alike; the classes of loaded nodes are the built-in ones because a run that defines no class makes no instances (`Lemmas/SameText2`); with C76, C11 and uniqueness of reading. Scripts (`Lemmas/SameText3`): every class a Script gets while reading is built from the library's Script and what the file says of it, in the order in which the writer sorts the declarations, and the three fields common to all Scripts are left out for the same values |
| C89 | `Model/CopyText`: what the writer sees of a heap of `Model/Copy` (names, values, lists, ROUTE nodes) | the relation of writer runs of C88, with the identity except for the copied node; naming of routed nodes depends only on which names are in use (`Lemmas/CopyText`), and copying a DEF table keeps the names |
| C90 | `Model/FullRead`; the rules are `Spec/Good` (written on parse trees, with scopes of names and interfaces) | induction over the derivation of the rules (`Lemmas/Good4`–`Good6`) with an invariant `GSim` (`Lemmas/Good2`, `Good3`): known names and prototypes have the interfaces that the rules say, every connection from a field leads to a field of the same kind, so no forwarded value is refused and every interface default fits |
| C91 | `Model/FullRead`, `Model/Lineariser`, `Model/Library`; the condition is `Spec/Loaded` (`Savable`) | sharing: counting argument over what the file says (`Lemmas/Sharing`: every created node is held once by the log of C78, and USE only holds named nodes); invariants of the reader over all runs (`Lemmas/Loaded`: names are legal, route ends are named, without prototypes every DEF name is registered in the file's scene); then C81 and C88 apply to the loaded scene. Scripts (`Spec/LibraryScripts`, `Lemmas/LoadedScripts`): the class of every loaded Script has legal names and registered types, by induction over the reader's steps, and distinct names by C78 |
| C92 | `Model/Edit` over `Model/Lineariser`, `Model/SceneRead`, `Model/Library`; the conditions are `Spec/Edit` (`InOrder`, `Allowed`, `Finished`) | invariant `InOrder` over all histories of edits (one lemma per kind of edit; giving a root scene graph re-registers a node under its own name, which changes nothing but the entry of the empty name); at the end the invariant gives `LibraryScene`, and C81 and C88 apply; values, names and children are followed through the rest of the history. With Scripts the same invariant, where a node may be a Script instead of a node of the library (`Props/EditScripts`) |
| C93 | `Model/Animate` (assignment) over `forward` of `Model/FullRead`; `Spec/Animate` (`Starts`, `KeepsValue`, `LastAt`, `Routed`) | the set of fields that have the new value grows along each connection and nothing else changes: induction over the visited list of an event (`Lemmas/Animate`); histories by induction from the end; that connections are ROUTEs is an invariant over the run of the reader (`Lemmas/RouteWires`; with ROUTEs from Scripts, which may get fields later, for files whose ROUTEs stand outside the nodes: `Lemmas/OuterRoutes`); saving: the changed values hold no nodes, so the scene stays one that C81 saves |
| C94 | `Model/Watch` (forwarding and assignment with the signals sent; a program that loads, assigns and asks) over `Model/Animate` and `Model/TransformCache`; `Spec/Watch` (`Told`, `World.matrices`) | leaving out the signals gives `Model/Animate` (induction over the recursion depth); the world afterwards is the old one with the told values stored in order; the cache's values of the scene's nodes equal the scene's (or are a read default) as an invariant over the program, then C34 and C35 |
| C95 | `Model/Session` (edits of `Model/Edit` and assignments of `Model/Animate` over the connections of the ROUTEs the scene has at that moment); `Spec/Session` (`Leads`: the ROUTEs lead from a field to another; allowed actions; untouched fields) | the connections are the ROUTEs; by C93 an assignment stores one value in exactly the fields that are led to, which keeps the nodes in order; then as C92, by induction over the program; with Scripts: `Spec/SessionScripts`, `Props/SessionScripts` |
| C96 | the writer of `Model/Lineariser` and `Model/ProtoText`; `Spec/Order` (the same scene or file up to the order of declarations; alphabetical order; the pieces of a node's text) | Python's `sorted` on a total order with different keys forgets the order of its input, so the writer takes the same steps; the output only grows, so a node's text is the concatenation of its pieces, whose fields are a sublist of the sorted ones |
| C97 | `Model/WeakDict`: `data` keyed by weak references that compare by referent while alive and by identity when dead; deaths are environment steps that clear references and run callbacks; `Spec/WeakDict` is a plain `PyDict` over objects | invariant (keys alive, distinct, references not reused) and step-by-step refinement over all histories |
| C67 C68 | `ProtoText`: writing and reading PROTO and EXTERNPROTO declarations, on top of `Lineariser`/`SceneRead` | writer: induction on the nesting rank of prototypes, invariant on the pieces written; reader: induction over the pieces with an invariant on the prototypes known; PEG derivations for declarations |

## 4. Findings about the code (all stated as theorems)

* `del l[i]` on an observable list removes nothing (C24); `+=` on a field rebinds it to a silent copy (C26); child lists that come from a
  default are silent (C27); pure-Python `del node.field` deletes nothing (C15, C16).
* A non-empty MFString attribute of any written node makes the whole file text rejected by the parser (C56).  Type names that start with a keyword are
  misread (C57).  An attribute that shares one component with an array default is dropped (C09); the empty scene is
  unreadable (C09); a shared unnamed node is duplicated, with a warning comment (C09, C10).
* Rows of more than 100 components make the writer loop for ever (C05); `inf`/`nan` are written but unreadable (C03); decimal integers with a leading zero
  are rejected (C06).
* A holder that was replaced removes its successor's entry (C33); `transformMatrix(scale, no rotate)` can be stale (C35);
  transform matrices with a parent matrix are not inverse (C61); the orthographic matrix is transposed (C40).
* Events in the middle of routes loop for ever or deliver None (C45); diamonds deliver twice (C43).
* `getField` returns a string for storage names (C46, C65); NaN colours pass (C20); `#rgb` is misread (C22); ShaderGeometry.appearance's default is rejected
  by its own field (C58); fields of type SFUInt32 and SFArray32 cannot be parsed (C59).
* PROTO instances share the fields mapped by IS (C51); copying a scene graph keeps the original children (C50); root propagation diverges
  on cyclic graphs (C54); a function added as a route makes the scene graph unwritable (C66); a scene graph with prototypes that was read
  from a written file cannot be written again (C67); written EXTERNPROTOs cannot be read (C68).
* The value of a field that a Script declares, and `IS` on it, are lost when the scene is written (C71); NULL in a list of nodes is written but unreadable (C09).
* The X3D parser refuses every file without a PROFILE line, and every file that starts with the version line its own grammar describes; the words
  `inputOutput` and `outputOnly` are misunderstood; lists within lists are syntax errors; `COMPONENT name:level` is never
  accepted (the name takes the colon), nor are two COMPONENT lines (nothing takes the end of the line between them) (C70).
* `center()` raises for every transform with a translation or center; `transformMatrix` and `itransformMatrix` with a parent are not inverse (C83).
  An event of a prototype's interface that is mapped by IS can never be sent: IS routes both ways, and an event port starts each passage with a new visited
  table, so the recursion never ends; the same for setting an interface field whose body field is also mapped to an event (C86); a file with such a prototype (the usual way to map an exposed field) cannot be read as soon as an instance
  gives the field a value (C87).
  Putting a node into a scene overwrites the roots of nodes below it, and appending to a child list sets no root (C85).
