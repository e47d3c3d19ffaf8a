#!/usr/bin/env python3
"""Source of properties.jsonl (run: python3 tools/gen_properties.py)."""
import json, os
P = []
def p(id, title, statement, quantifier, why, anchors):
    P.append(dict(id=id, title=title, statement=statement, quantifier=quantifier,
                  why_tests_cant=why, anchors=anchors))

# ---------------------------------------------------------------- text
p("C01", "SFString text round trip",
  "Writing any string with the SFString field's VRML form and reading that text back with the SFString grammar rule and the parse processor yields exactly the original string, consumes exactly the written text, and leaves whatever follows untouched.",
  "every string (any characters, including quotes, backslashes, newlines, control and non-ASCII characters) and every text that follows it",
  "the strings that break an escaping scheme are combinations of quotes and backslashes of any length; a test only samples them",
  ["vrml/fieldtypes.py: _SFString.vrmlstr, SFString_vrmlstr", "vrml/vrml97/parser.py: SFString rule", "vrml/vrml97/parseprocessor.py: ParseProcessor.SFString"])
p("C02", "MFString text round trip",
  "The MFString VRML form of any list of strings is read back by the MFString grammar and parse processor as the same list in the same order, consuming exactly the written text, for any separator text made of ignorable characters.",
  "every list of strings (empty, single element, elements longer than the 60-character layout threshold) and every choice of ignorable separators",
  "unbounded list lengths and string contents, and layout decisions that depend on length",
  ["vrml/fieldtypes.py: MFString.vrmlstr", "vrml/vrml97/parser.py: MFString, SFString, ts", "vrml/vrml97/parseprocessor.py: ParseProcessor.MFString"])
p("C03", "Number compaction preserves the number",
  "The shortened text produced for a float (leading zero dropped, trailing .0 dropped) denotes exactly the same decimal number as the full repr, and the VRML number grammar reads the whole of it as one number.",
  "every finite float repr of the forms Python produces (fixed point and exponent, signed)",
  "the text surgery is conditional on the shape of the repr; all shapes must be covered",
  ["vrml/fieldtypes.py: SFFloat_vrmlstr", "vrml/vrml97/parser.py: SFNumber"])
p("C04", "Integer list text round trip",
  "The VRML text of an MFInt32 value is read back as exactly the same integers in the same order, no matter how many there are (the writer breaks lines every 100 values).",
  "every list of integers of every length, every separator set made of ignorable characters",
  "the chunk boundary cases are unbounded in number",
  ["vrml/fieldtypes.py: MFSimple_vrmlstr, MFInt32.vrmlstr", "vrml/vrml97/parseprocessor.py: MFInt32"])
p("C05", "Vector list text keeps every component",
  "The VRML text of an MFVec2f/MFVec3f/MFColor/MFRotation value contains every component of every row, in order, each as a separate number, and regrouping the numbers read by the row length gives back the rows.",
  "every number of rows, every row length >= 1 up to 100, every separator set made of ignorable characters",
  "row and line chunking interact; failure would appear only at particular lengths",
  ["vrml/fieldtypes.py: MFVec.vrmlstr and SFVec.vrmlstr", "vrml/vrml97/parseprocessor.py: MFVec3f, MFVec2f, MFColor, MFRotation"])
p("C06", "Integer text round trip",
  "The decimal text written for an SFInt32 is accepted whole by the SFInt32 rule and read back as the same integer; the 0x form is read as base 16. A list of numbers is read exactly if each of its numbers is, and has one value for each, in order.",
  "every integer and every following text that cannot continue a number",
  "integers are unbounded",
  ["vrml/vrml97/parser.py: SFInt32", "vrml/vrml97/parseprocessor.py: SFInt32", "vrml/fieldtypes.py: SFInt32.vrmlstr"])
p("C07", "Whitespace, commas and comments are insignificant",
  "Between values any run of blanks, tabs, newlines, carriage returns, commas and newline-terminated # comments is skipped completely and changes nothing; a comment that is not terminated by a newline is not skipped. Two files that consist of the same words, brackets, braces and strings are read as the same scene (or both refused), whatever layout and header line they have.",
  "every run of ignorable characters and comments, every continuation; every pair of files that differ in layout only",
  "comments may contain any text, including text that looks like VRML",
  ["vrml/vrml97/parser.py: ts, comment, header"])
p("C08", "The grammar gives every input one outcome",
  "For every input text and every start rule the VRML97 grammar terminates with exactly one outcome (a failure, an error, or a unique parse), whatever the nesting depth.",
  "every input text, every grammar rule",
  "left recursion or an empty repetition would hang only on particular inputs",
  ["vrml/vrml97/parser.py: declaration grammar"])
# ---------------------------------------------------------------- scene text
p("C09", "Scene text round trip",
  "Linearising a scene graph and parsing the text rebuilds an equal scene graph: same node types, same field values, same nesting and order, the same DEF names, the same sharing of nodes through USE, the same routes, and Scripts with the same interfaces. The scene must have a child, safe type and field names, legal distinct DEF names for the nodes held in several places, no NULL in node lists, no non-empty string lists as attributes, and attributes left out by the writer must equal their defaults; without each of these the text is unreadable or rebuilds something else.",
  "every such finite scene of nodes with scalar, list, string, node and node-list fields and Scripts, any depth, any graph and sharing pattern, any formatting options built from ignorable text",
  "the space of scenes is unbounded; sharing and separators interact",
  ["vrml/vrml97/linearise.py: Lineariser", "vrml/vrml97/parser.py", "vrml/vrml97/parseprocessor.py"])
p("C10", "USE never precedes its DEF",
  "In every linearised scene each USE name refers to a DEF of that name written earlier in the same text; and each node's body is written at most once, provided every node held in several places has a DEF name or is an end of a route (without that, even a named node below a shared unnamed one is written twice).",
  "every node graph given to the lineariser, including shared and cyclic ones",
  "depends on traversal order over an arbitrary graph",
  ["vrml/vrml97/linearise.py: Lineariser._canUse, Lineariser._Node"])
p("C11", "Routed nodes get fresh names",
  "Before writing, every node that is the source or destination of a ROUTE ends up with a non-empty DEF name; nodes already named keep their names and nothing else of the scene changes; a name given by the writer is the type name with a number and is registered for that node alone; if every named node was registered under its name, no two nodes of the scene share a name afterwards; writing the result again gives the same text. (A routed node that already shares its name with another keeps it.)",
  "every scene graph, every set of existing DEF names, every list of routes",
  "name search must terminate and avoid every existing name",
  ["vrml/vrml97/linearise.py: Lineariser._preroute"])
# ---------------------------------------------------------------- fields
p("C12", "A set is seen by the next get and notified exactly once",
  "Assigning a field stores the coerced value, the next read returns exactly that value, exactly one ('set', field) notification carrying it is sent from that node, and no other field of that or any other node changes.",
  "every node state, field, acceptable value, and every later sequence of operations on other fields",
  "frame conditions over arbitrary histories",
  ["vrml/field.py: BaseField.__set__, fset, _set, __get__"])
p("C13", "A rejected set changes nothing",
  "If the field's coercion rejects a value, the assignment raises ValueError, no stored value changes and no notification is sent.",
  "every node state, field and rejected value",
  "must hold in every state",
  ["vrml/field.py: BaseField._set"])
p("C14", "Reading a default is stable and silent",
  "Reading an unset field returns the coerced default, sends no notification, and every later read returns the same value until the field is assigned or deleted.",
  "every node state and every history of reads and other-field operations",
  "history property",
  ["vrml/field.py: BaseField.__get__, getDefault"])
p("C15", "Deleting a field restores its default",
  "With the accelerated field class, after deleting a field's value the next read returns the field's default and the deletion returns the removed value; the pure-Python class deletes nothing: the value is still there afterwards; deleting an unset field raises and changes nothing.",
  "every node state, both field implementations",
  "history property; the pure-Python implementation only looks the value up",
  ["vrml/field.py: BaseField.__delete__, fdel", "accelerate/src/fieldaccel2.pyx"])
p("C16", "Pure Python and accelerated fields behave alike",
  "Any sequence of gets, sets and quiet sets gives the same results, stored values and notifications with the pure-Python and the accelerated field class. (Deletion is where they differ.)",
  "every sequence of get/set operations from every state",
  "equivalence over all histories",
  ["vrml/field.py: BaseField", "accelerate/src/fieldaccel2.pyx: BaseField"])
p("C17", "A weak field never returns a dead node",
  "Reading a weak node field returns either None/the default or a node that is still alive, and after the referenced node dies the next read returns None and forgets the reference.",
  "every history of sets, reads and node deaths",
  "garbage collection may happen between any two operations",
  ["vrml/field.py: WeakField"])
# ---------------------------------------------------------------- coercions
p("C18", "Coercion is idempotent",
  "Coercing an already coerced value of a field type returns the same value: SFBool, SFInt32, SFFloat, SFString, MFString, MFInt32, MFFloat, SFVec2f/3f/4f, SFColor, SFRotation, MFVec2f/3f, MFColor.",
  "every value accepted by the type",
  "values range over all Python inputs the type accepts",
  ["vrml/fieldtypes.py: coerce methods"])
p("C19", "Coercion shape invariants",
  "A value accepted by a field type always has the type's shape: SFVecNf has exactly N components, every MFVecNf row has exactly N components, an SFBool is 0 or 1, an MFString contains only strings.",
  "every value accepted by the type",
  "must hold for all inputs",
  ["vrml/fieldtypes.py: coerce methods"])
p("C20", "Colours are always in range",
  "Every accepted SFColor value has three components, and every row of an accepted MFColor, each between 0 and 1 or NaN; three numbers none of which is NaN are always accepted and end up between 0 and 1. (NaN is not rejected.)",
  "every accepted input (sequence, array, colour name, hex string)",
  "must hold for all inputs",
  ["vrml/fieldtypes.py: _Color, SFColor, MFColor", "vrml/csscolors.py"])
p("C21", "Nested list flattening",
  "Flattening a nested list yields exactly its leaves, left to right, and contains no list.",
  "every nesting shape and depth",
  "unbounded depth",
  ["vrml/fieldtypes.py: _collapse / collapse"])
p("C22", "Hex colour text",
  "A #rrggbb string, digits in either case, gives the three bytes divided by 255; writing three bytes as hex and reading it gives them back; every CSS colour name maps to components in [0,1]. (#rgb is not expanded: it is read as a six-digit number.)",
  "every hex string of valid length, every colour name in the table",
  "16 million colours and both cases of digits",
  ["vrml/csscolors.py: stringToColor, toFloat, toInt, csscolors table"])
p("C23", "Vectors accept plain sequences, matrices only arrays",
  "Assigning a flat list of the right number of numbers to an SFVec field is accepted and keeps the components in order, another number of components is rejected; MFVec fields accept rows and flat lists; a matrix field accepts every array with the right number of elements and rejects every plain nested list.",
  "every sequence of the right shape",
  "all component values",
  ["vrml/fieldtypes.py: _SFVec.coerce, _MFVec.coerce, SFMatrix"])
# ---------------------------------------------------------------- olist
p("C24", "Observable list contents match list semantics",
  "After any sequence of append, insert, extend, pop, remove, slice assignment, slice deletion and item assignment, an observable list holds what a plain list would hold after the same operations and raises the same exceptions. Deleting one item, `del l[i]`, is the exception: it never removes anything.",
  "every operation sequence from every initial list, every integer index including negative ones and every slice bound",
  "unbounded histories",
  ["vrml/olist.py: OList"])
p("C25", "Observable list events reconcile with contents",
  "For each object, the number of 'new' events minus the number of 'del' events sent over any sequence of accounted operations equals the change in the number of times the object occurs in the list; the accounted operations are exactly those for which one step reconciles: all but effective `del l[i]`, clear of a non-empty list, and slice assignments that repeat a replaced item.",
  "every operation sequence",
  "duplicates and slices interact; histories are unbounded",
  ["vrml/olist.py: OList.__setitem__, __delitem__, _sendAdded, _sendRemoved"])
p("C26", "In-place extension",
  "Extending an observable list in place leaves it with all the previous and the new items in order and announces each new item once; but `node.field += more` always rebinds the field to another, non-observable value, which holds the previous items only if there were none.",
  "every list and every addition",
  "identity and history property",
  ["vrml/olist.py: OList.__iadd__, extend"])
p("C27", "Changing a child list notifies watchers of the node",
  "For a child list that came from the constructor, the parser or `fset` while the field held nothing, every addition or removal through the list sends a ('set', field) notification from the owning node, whatever happened since (short of assigning the attribute). Lists that came from reading the default or from assigning the attribute are silent.",
  "every later history and every mutation of the list",
  "depends on history of how the list was created",
  ["vrml/node.py: _MFNode.fset, _changeSender, MFNode", "vrml/olist.py"])
# ---------------------------------------------------------------- weaklist
p("C28", "Weak list drops exactly the dead items",
  "When an object is garbage collected every entry for it disappears from the weak list and the remaining entries keep their order, whatever operations and collections happened before.",
  "every interleaving of list operations and object deaths",
  "collection can occur between any two operations",
  ["vrml/weaklist.py: WeakList"])
p("C29", "Weak list iteration yields only live items",
  "Iterating a weak list while objects die yields only objects alive at that moment, items of the list, in list order, none more often than it occurs; if nothing dies during the iteration it yields every item exactly once. (A death during the iteration may make it skip a living item.)",
  "every interleaving of deaths with iteration steps",
  "schedules are unbounded",
  ["vrml/weaklist.py: WeakList.__iter__, __getitem__"])
# ---------------------------------------------------------------- cache
p("C30", "Cache returns the latest data for its client and key",
  "getData(client, key) returns the data of the most recently created holder for exactly that client and key (or the data later set on it), and operations on other clients or keys never change it.",
  "every history of holder creation, set, and invalidations",
  "unbounded histories and key combinations",
  ["vrml/cache.py: Cache, CacheHolder"])
p("C31", "A dependency change invalidates the cached data",
  "After a holder depends on a node's field, any set, deletion or routed update of that field makes getData return None (not the old data) until new data is stored, and changes of other fields or nodes leave it alone.",
  "every history of depends, field changes and stores",
  "unbounded histories",
  ["vrml/cache.py: CacheHolder.depend, clear"])
p("C32", "Reusing a dead client's identity never leaks its data",
  "When a client node dies all its cached data goes away, so a new object that happens to get the same id never sees it.",
  "every history of node creation, death, id reuse and cache operations",
  "allocator-dependent id reuse cannot be scheduled by a test",
  ["vrml/cache.py: cleaner, CacheHolder.__init__"])
p("C33", "Removing a holder removes only that holder's data",
  "Calling a holder never changes the entries under other keys or clients, and calling the current holder removes its entry. (A holder that was replaced under its key removes the newer entry.)",
  "every cache state",
  "stale holders (replaced under the same key) are history dependent",
  ["vrml/cache.py: CacheHolder.__call__"])
p("C34", "Transform.localMatrices is always up to date",
  "The matrices a Transform returns are those computed from its current translation, rotation, scale, scaleOrientation and center, whatever sets, deletions, routed updates and earlier queries happened.",
  "every history of field changes and matrix queries with any flag combination",
  "stale caches show up only after particular histories",
  ["vrml/vrml97/basenodes.py: Transform.localMatrices", "vrml/cache.py"])
p("C35", "NodePath.transformMatrix is always up to date",
  "The matrix a node path returns is the one computed from the current fields of the transforms on the path, for every combination of flags except scaling without rotation (there the center is not watched and the matrix can be stale).",
  "every path, every history of field changes and queries",
  "stale caches show up only after particular histories",
  ["vrml/vrml97/nodepath.py: NodePath.transformMatrix"])
# ---------------------------------------------------------------- matrices
p("C36", "Transform matrices and their inverses cancel",
  "The forward and inverse local matrices of a transform multiply to the identity in both orders.",
  "every translation, rotation with non-zero axis, non-zero scale, scale orientation and center, each present or absent",
  "continuum of real parameters",
  ["vrml/vrml97/transformmatrix.py: transformMatrices, itransformMatrix, transformMatrix", "vrml/vrml97/_transformmatrix.py"])
p("C37", "Rotation matrices are rotations",
  "The rotation matrix of any axis and angle is orthogonal with determinant 1, leaves its axis fixed, composes by adding angles about the same axis, and depends only on the direction of the axis.",
  "every non-zero axis and every angle",
  "continuum of real parameters",
  ["vrml/vrml97/_transformmatrix.py: rotMatrix"])
p("C38", "Compressing matrices treats None as identity",
  "Compressing a sequence of matrices in which None stands for the identity gives the product of the present ones in the documented order, None exactly when all are None.",
  "every sequence of optional matrices",
  "unbounded length",
  ["vrml/vrml97/transformmatrix.py: compressMatrices"])
p("C39", "Path matrices compose",
  "The matrix of a concatenated node path is the product of the matrices of the parts, and the inverse matrix of a path is the inverse of its matrix.",
  "every path of any length",
  "unbounded length, real parameters",
  ["vrml/vrml97/nodepath.py: NodePath.transformMatrix, itransformMatrix"])
p("C40", "Projection matrices",
  "The perspective matrix times its returned inverse is the identity for valid view parameters and maps the frustum as stated; the orthographic matrix maps the view box onto the [-1,1] cube when applied to column vectors (it is transposed with respect to the row-vector convention of the other matrices).",
  "every valid field of view, aspect, near and far; every box",
  "continuum of real parameters",
  ["vrml/vrml97/_transformmatrix.py: perspectiveMatrix, orthoMatrix", "vrml/vrml97/transformmatrix.py"])
p("C41", "Accelerated and pure matrices agree",
  "The accelerated and pure-Python rotation, scale, translation and perspective matrices are equal entry by entry wherever both are defined.",
  "every parameter value for which neither raises",
  "continuum of real parameters",
  ["vrml/vrml97/_transformmatrix.py", "accelerate/src/tmatrixaccel.pyx", "vrml/vrml97/_transformmatrix_accel.py"])
p("C42", "Plane culling is exact",
  "A point set is culled exactly when some plane has every point further than the tolerance on its negative side; the first such plane is reported; a set with a point inside all planes is never culled.",
  "every set of points and planes, every tolerance",
  "real geometry of any size",
  ["accelerate/src/frustcullaccel.pyx: planeCull"])
# ---------------------------------------------------------------- routes
p("C43", "Event cascades terminate",
  "Setting any field in any route network in which event ports are only ends of routes, including cyclic ones, terminates, and delivers to each port at most as many times as there are routes leaving the set port (so at most once if there is one; two routes that meet again do deliver twice).",
  "every finite route graph, every initial set",
  "cycles of any shape",
  ["vrml/route.py: ROUTE._forward", "vrml/event.py: Event.visited"])
p("C44", "Events reach exactly what is reachable",
  "A set reaches every field connected by routes from it and no other; each reached field receives the sender's value coerced along a route path.",
  "every finite route graph, every initial set",
  "graph shapes are unbounded",
  ["vrml/route.py: ROUTE._forward, ROUTE.bind"])
p("C45", "Event ports in routes",
  "An event port that only ends routes receives the value set, unchanged, at least once and at most once per route leaving the set port, and the cascade terminates. In the middle of routes event ports do not behave like fields: a cycle through one never terminates, and a field behind one ends up with what its coercion makes of None.",
  "every route graph with event ports",
  "cycles of any shape",
  ["vrml/route.py: ROUTE._forward", "vrml/field.py: Event.__set__"])
# ---------------------------------------------------------------- protos / scenegraph
p("C46", "Field lookup resolves VRML event names",
  "Looking a field up by its name, by set_NAME or by NAME_changed gives the same field object, an exact name always wins, and an unknown name raises AttributeError; lookup is completely described by stripping the prefix and suffix until a known name is reached. (A name that is only a storage name is returned as a string instead of the field.)",
  "every prototype, every name",
  "names are arbitrary strings; prefixes and suffixes may be stacked",
  ["vrml/protofunctions.py: getField"])
p("C47", "Field enumeration gives the most derived definition",
  "Listing a prototype's fields returns for each attribute name the most derived field definition, each name once.",
  "every class hierarchy",
  "inheritance chains are unbounded",
  ["vrml/protofunctions.py: getFields"])
p("C48", "DEF table returns the last registration",
  "getDEF(name) returns the node most recently registered under that name, and registering other names does not disturb it. (Assigning the DEF field directly, or registering in two scene graphs, leaves the table stale.)",
  "every sequence of registrations",
  "unbounded histories",
  ["vrml/vrml97/scenegraph.py: SceneGraph.regDefName, getDEF"])
p("C49", "Prototype lookup follows lexical scoping",
  "getProto(name) finds the definition in the innermost enclosing scene graph that defines the name, falling back to the base prototypes.",
  "every nesting depth of scene graphs and every set of definitions",
  "unbounded nesting",
  ["vrml/vrml97/scenegraph.py: SceneGraph.getProto, addProto"])
p("C50", "Copying a node copies its values",
  "A copy of a node is a new node with the same prototype and the same values of every field, the same node reached twice is copied once, and later assignments to one do not affect the other. (A copied child list is a plain, silent list, and a copied scene graph keeps the original children.)",
  "every node, every later history of assignments",
  "unbounded histories and sharing",
  ["vrml/node.py: Node.copy", "vrml/copier.py: Copier"])
p("C51", "What PROTO instances share",
  "A field of a PROTO that no IS mentions is independent in each instance. A field mapped by IS is shared: for any two instances, a value set on one arrives in the other and in the template node, which all instances use; on instantiation the default reaches the last node mapped.",
  "every PROTO, every pair of instances, every state",
  "depends on the shape of the body",
  ["vrml/node.py: PrototypedNode / instantiate", "vrml/vrml97/scenegraph.py: copy"])
p("C52", "Node path algebra",
  "common(p,q) is the longest common prefix of the two paths; path equality is element-wise identity; concatenation is associative and keeps both parts.",
  "every pair of paths",
  "unbounded length",
  ["vrml/nodepath.py: NodePath"])
p("C53", "Invalidating a path reaches two levels",
  "Invalidating a node path marks exactly the path itself, the live paths derived from it and the live paths derived from those as broken (and no further level).",
  "every tree of paths",
  "unbounded depth",
  ["vrml/vrml97/nodepath.py: invalidate, iterdescendents"])
p("C54", "Root scene graph propagation",
  "Assigning a scene graph as a node's root scenegraph gives that root to exactly the nodes reachable through its node fields and registers every DEF name among them, and it completes on every acyclic graph; on a cyclic one it does not.",
  "every finite node graph",
  "unbounded depth and sharing",
  ["vrml/node.py: RootScenegraphNode.fset"])
p("C55", "Value comparison",
  "Without numpy arrays safeCompare reports two values equal exactly when they have the same type and equal contents; two arrays of one shape are reported equal exactly when they agree in some place, and an array is never equal to a value of another kind.",
  "every pair of values, scalars and arrays",
  "arrays of any length",
  ["vrml/arrays.py: safeCompare"])
p("C56", "String-list attributes do not survive linearisation",
  "Every scene in which some written node has a non-empty MFString attribute (different from its default) is linearised, without complaint, to a text that the parser rejects, whatever the strings and whatever else is in the scene (as long as no name brings brackets, quotes, # or the word EXTERNPROTO into the text).",
  "every scene (any graph, sharing, cycles, routes, Scripts), every non-empty string list, node type, DEF and field name, every formatting option made of ignorable text that ends lines",
  "all values are affected",
  ["vrml/vrml97/linearise.py: Lineariser._sffield, _mfnode"])
p("C57", "Which type and DEF names read back",
  "A node whose type name and DEF name are made of legal VRML name characters is parsed back with those names if and only if the type name is not taken for something else: at root level a type name that begins with PROTO, EXTERNPROTO, ROUTE, DEF or Script, or is USE followed by a name, is misread; every legal DEF name reads back.",
  "every legal type name other than Script itself, every legal DEF name",
  "names that begin with a keyword are a thin slice of all names",
  ["vrml/vrml97/parser.py: name, Node, ROUTE, PROTO, USE, Script"])
p("C58", "Built-in defaults are acceptable to their own field",
  "Reading any unset field of any built-in node succeeds: its default is accepted by the field's own type; the one exception is ShaderGeometry.appearance, whose default its type rejects.",
  "every field of every built-in node",
  "hundreds of declarations, some never read by tests",
  ["vrml/vrml97/basenodes.py", "vrml/vrml97/shaders.py", "vrml/vrml97/nurbs.py"])
p("C59", "Which field types can be parsed",
  "For every field of every built-in node the parser has a method for its type, so that the field given in a file can be read, exactly unless the type is SFUInt32 or SFArray32; every type is registered.",
  "every field type of every built-in node",
  "finite but large table, spread over files",
  ["vrml/vrml97/parseprocessor.py: ParseProcessor.Field", "vrml/fieldtypes.py: register calls"])
p("C60", "Transforms move points as VRML97 prescribes",
  "Applying a transform's forward matrix to a local point (homogeneous row vector) gives translation + center + rotation(scaleOrientation(scale(inverse scaleOrientation(point - center)))), and the inverse matrix brings it back; a path's matrix applies the transforms from the deepest to the root.",
  "every point, every combination of fields present or absent, every path",
  "continuum of real parameters, unbounded path length",
  ["vrml/vrml97/transformmatrix.py: localMatrices, compressMatrices", "vrml/vrml97/_transformmatrix.py", "vrml/vrml97/nodepath.py: transformMatrix"])
p("C61", "Matrices with a parent matrix",
  "With a parent matrix transformMatrices returns the local matrix and the local inverse both multiplied by the parent's forward matrix; so the pair is mutually inverse exactly when local * parent * local^-1 * parent = 1 (in particular not for a parent that is a translation), and without a parent matrix it is.",
  "every transform and every invertible parent matrix",
  "continuum of real parameters",
  ["vrml/vrml97/transformmatrix.py: transformMatrices, transformMatrix, itransformMatrix"])
p("C62", "Adding and removing fields of a prototype",
  "After a field or event is added to a prototype, looking its name up gives it and it is enumerated, every other name resolves as before; removing it again restores every lookup; removing a name the class does not define itself raises.",
  "every class hierarchy, field and name",
  "unbounded class hierarchies and names",
  ["vrml/protofunctions.py: addField, removeField, getField, getFields"])
p("C63", "Coercions keep the value",
  "A coercion stores the value it was given: texts are cut at white space and commas and converted word by word in order, integer lists are stored unchanged when every element fits 32 bits and refused otherwise, floats assigned to integer fields are truncated toward zero, truth values and the words true/false become 1/0, texts and lists of texts and colour names are kept in order.",
  "every number, text, nested list and element type",
  "unbounded texts and lists; the words of a text and the numbers near the 32-bit bounds cannot be enumerated",
  ["vrml/fieldtypes.py: _SFBool.coerce, _SFInt32.coerce, _SFFloat.coerce, _SFString.coerce, _MFString.coerce, _MFInt32.coerce, _MFFloat.coerce, _SFVec.coerce, _MFColor.coerce"])
p("C64", "Frustum culling is conservative",
  "planeCull returns the first plane with every point of the volume more than minDistance behind it, and False exactly when every plane has a point in front; then no position of the convex hull of the points (a bounding box given by its corners, say) reaches that plane, so nothing visible is culled; a larger minDistance culls no more; an empty point set is culled by the first plane.",
  "every list of planes, every point set, every minimum distance (exact arithmetic)",
  "continuum of planes and points; the claim about the whole volume concerns infinitely many positions",
  ["accelerate/src/frustcullaccel.pyx: planeCull"])
p("C65", "Building a node from keyword arguments",
  "Node(**arguments) succeeds exactly when every argument names a field (or set_/_changed form) of the class and the field accepts the value; then every field has the coerced value of the last argument naming it, every other field is unset, and one set notification per argument was sent in call order; otherwise it raises the error of the first bad argument (AttributeError, TypeError or ValueError by cause).",
  "every class hierarchy and every list of arguments",
  "unbounded classes, names and argument lists",
  ["vrml/node.py: Node.__init__", "vrml/protofunctions.py: getField", "vrml/field.py: BaseField.fset"])
p("C66", "Adding routes to a scene graph",
  "addRoute with four parts never fails, appends one ROUTE whose ends are the given nodes or the nodes registered under the given DEF names (NULL when unknown), and the route hears set, del and route signals of the source field exactly if that exists; with a function, the function hears set and del but not route signals; nobody else is connected or disconnected. A scene graph that ever got a function cannot be written any more.",
  "every scene graph, every form of argument, every later sequence of additions",
  "unbounded histories of additions",
  ["vrml/vrml97/scenegraph.py: SceneGraph.addRoute", "vrml/route.py: ROUTE.__init__, bind, _bind", "vrml/vrml97/linearise.py: Lineariser._preroute"])
p("C67", "Files with prototypes survive writing and reading",
  "A scene graph that uses PROTOs (nested to any depth, with IS connections, interface fields and events) is linearised so that each PROTO it needs is declared once, in front of everything that uses it; the text parses; the scene read is the same up to node identity and names given to unnamed nodes; exactly the needed PROTOs are read, each with the same name, visible fields, types, exposure, defaults, events, IS connections and body, and instances of it can be created. (But the scene graph read this way can never be linearised again.)",
  "every file made of writable scenes and prototype bodies, any number and nesting of prototypes, all formatting options made of ignorable text",
  "the number, nesting and contents of prototypes and scenes are unbounded",
  ["vrml/vrml97/linearise.py: Lineariser._proto, _sceneGraph, _eventDict, _fieldDict", "vrml/vrml97/parseprocessor.py: ParseProcessor.Proto, fieldDecl, eventDecl, rootItem", "vrml/field.py: fieldVrmlstr, eventVrmlstr", "vrml/node.py: PrototypedNode.instantiate, prototype"])
p("C68", "External prototypes are written in a form the reader rejects",
  "If the first prototype a file needs has URLs (is external), the text written for the file raises a syntax error when parsed, whatever the interface, the URLs and the rest of the file: the writer gives each interface field its default value, which EXTERNPROTO does not allow, and there is always such a field.",
  "every file whose first prototype is external, all interfaces, URLs and formatting options made of ignorable text",
  "unbounded interfaces and files",
  ["vrml/vrml97/linearise.py: Lineariser._proto, _fieldDict", "vrml/vrml97/parser.py: VRMLPARSERDEF ExternProto, extFieldDecl", "vrml/node.py: Node.externalURL"])
p("C69", "Scenes read from files have no loose ends",
  "Whatever text is parsed, if parsing succeeds the result is unique and complete: every node has a class that was known, every stored value belongs to a field of that class and has its type (vectors have the right number of components), every node referred to by a value, a child list, a route or the DEF table is in the scene, routes connect named nodes, the DEF table finds under each name the node created last, and outside prototypes nothing is IS-mapped; the same holds for the body of every prototype in the file. (Not guaranteed: the reader accepts a node that is its own child.)",
  "every text, every table of node classes",
  "a test parses a handful of files; the claim is about every text the grammar accepts",
  ["vrml/vrml97/parseprocessor.py: ParseProcessor", "vrml/vrml97/scenegraph.py: regDefName, getDEF", "vrml/field.py: fset"])
p("C70", "The X3D parser reads VRML97 scenes as the VRML97 parser does",
  "The vrml200x parser gives every text exactly one outcome and never accepts a file in part. Put a VRML97 scene under an X3D header (a comment line, a PROFILE line, and possibly a COMPONENT statement with blanks around its colon or a META statement with two strings): if none of the words new in X3D occurs in it, the X3D parser reads it exactly when the VRML97 parser reads it and no list of numbers stands within a list, and then both give the same scene and prototypes. (A file without a PROFILE line is refused, and so is one that starts with the version line the grammar itself describes, one with COMPONENT name:level without blanks, and one with a second COMPONENT line; fields declared inputOutput are read as not exposed and events declared outputOnly as incoming.)",
  "every text; every header comment, profile name, scene text, table of node classes and of field types",
  "agreement of two parsers on all texts is beyond any number of samples",
  ["vrml/vrml200x/parser.py: grammar, VRMLParser, buildParser", "vrml/vrml97/parser.py: VRMLPARSERDEF", "vrml/vrml97/parseprocessor.py: ParseProcessor.header, fieldDecl, eventDecl"])
p("C71", "Script interfaces survive writing and reading; values and IS do not",
  "A Script node that declares fields and events of registered types is written and read back as a Script with the same DEF name, the same events (name, type, direction), and the same declared fields (name, type, exposure, default; nodes in defaults are written in place and shared through USE). The values of declared fields and IS declarations on them never reach the text: two scenes that differ only there are written alike.",
  "every scene with any number of Scripts, any interface, any graph of nodes in defaults, all formatting options made of ignorable text that end lines",
  "interfaces, defaults and the graphs they lead to are unbounded",
  ["vrml/vrml97/linearise.py: Lineariser._Script, _eventDict, _fieldDict, _attrDict", "vrml/vrml97/parseprocessor.py: ParseProcessor.Script, scriptFieldDecl, scriptEventDecl", "vrml/vrml97/script.py", "vrml/field.py: fieldVrmlstr, eventVrmlstr"])
p("C72", "Accepted texts are properly nested",
  "For every text the VRML97 parser accepts (after its first line, the header), every bracket and brace opened outside strings and comments is closed by its partner, in order, and every string and comment is ended; a text that is not nested this way raises a syntax error. (Except that the address list of an EXTERNPROTO may be opened and not closed, or the reverse.)",
  "every text in which the word EXTERNPROTO does not occur outside strings and comments",
  "texts are unbounded and nest to any depth",
  ["vrml/vrml97/parser.py: VRMLPARSERDEF"])
p("C73", "Prototype names follow the scopes of the file",
  "When a file is read, a node type name denotes the latest prototype of that name whose declaration has ended, in the scene (file or PROTO body) the node stands in, or else in the nearest enclosing scene that has one, or else the built-in type; a file with a node of any other type is refused. Prototypes declared in a body, inside a node or inside a Script are registered with the scene around the declaration only. There is one node object per node in the file and one prototype object per PROTO or EXTERNPROTO, and instances have exactly the fields of their prototype.",
  "every text, with prototypes nested to any depth, anywhere the grammar allows them",
  "nesting and redeclaration are unbounded",
  ["vrml/vrml97/parseprocessor.py: ParseProcessor.Proto, ExternProto, Node, vrmlScene", "vrml/vrml97/scenegraph.py: getProto, addProto", "vrml/node.py: prototype"])
p("C74", "DEF names follow the scopes of the file",
  "In a file in which no PROTO field has a node in its default value, a name in a USE or ROUTE denotes the latest earlier node of that DEF name in the same scene (file or PROTO body), a file that uses any other name is refused, each ROUTE connects those two nodes and is listed, in order, with its own scene, and afterwards getDEF of every scene graph gives the last node of each name of that scene. (With nodes in default values the names leak: creating an instance registers the nodes in its defaults with the scene of the file.)",
  "every text whose PROTO interfaces have no nodes in default values",
  "nesting, redefinition and order of names are unbounded",
  ["vrml/vrml97/parseprocessor.py: ParseProcessor.Node, USE, ROUTE", "vrml/vrml97/scenegraph.py: getDEF, regDefName", "vrml/node.py: RootScenegraphNode.fset"])
p("C75", "Instances of a prototype share the fields its body maps",
  "When a mapped field of a prototype's instance (not a list of nodes) is given a value, forwarding ends and the value is stored in exactly the fields connected with it through IS and ROUTEs, directly or through others, and nothing else changes; in every file read, the field is connected with the mapped field of the body and so with the same field of every other instance, which therefore gets the value too (instances do not have independent values: in `A { } A { c 3 }` both end with c = 3). Lists of nodes, and values of nodes that are not instances, stay where they are set.",
  "every text, every set of connections (chains and cycles of any length), every value that the connected fields keep as it is",
  "the graph of connections is unbounded and may be cyclic",
  ["vrml/node.py: PrototypedNode.instantiate, ismaps", "vrml/route.py: IS, ROUTE._forward, _bind", "vrml/vrml97/parseprocessor.py: ParseProcessor.Node, Attr", "vrml/field.py: BaseField.fset"])
p("C76", "Reading a file back keeps scene and prototypes apart and intact",
  "When a file with prototypes that the reader's own writer made (a scene that can be written and read back, with good prototypes) is read into one store, where the bodies of prototypes, their instances and the file's scene share nodes' numbering, connections and forwarding, then the file's scene graph is the written scene, and under each prototype's name stands the prototype with the same interface, exposure, events, IS mappings and body (the values of mapped fields are the interface's business); other names are not declared. More generally, every file with prototypes declared at its top level only and defaults without nodes is read into one store exactly as its parts read one by one: reading an instance never disturbs an earlier part of the scene or of another prototype's body.",
  "every file (any number of nodes, prototypes, instances, IS mappings, routes)",
  "reading instances changes template nodes through connections; that only mapped fields are touched needs an invariant over the whole reading",
  ["vrml/vrml97/parser.py: Parser.parse", "vrml/vrml97/parseprocessor.py: ParseProcessor", "vrml/node.py: PrototypedNode.instantiate", "vrml/route.py: IS, ROUTE", "vrml/vrml97/linearise.py: linearise"])
p("C77", "Prototypes have the interfaces their declarations say",
  "After reading a file, every PROTO and EXTERNPROTO class has, for each declared name, exactly one field with the declared type, exposure and default (for an EXTERNPROTO: the default of the type), or exactly one event with the declared type and direction, as the last declaration of that name says; under no other name is there a field or event, except externalURL, which every node has; an EXTERNPROTO has the addresses given in the file and a PROTO has none but those of a declared field; and every instance has exactly these fields.",
  "every text, with prototypes nested to any depth; defaults that contain nodes are not described (except NULL)",
  "interfaces are of any length, with repeated names, and the classes of prototypes being read change while nested prototypes, defaults and bodies are read",
  ["vrml/vrml97/parseprocessor.py: ParseProcessor.Proto, ExternProto, fieldDecl, extFieldDecl, eventDecl, ExtProtoURL", "vrml/protofunctions.py: addField, setExternalURL, getFields", "vrml/node.py: prototype"])
p("C78", "Fields have the values written in the file",
  "After reading a file, a field of any node (numbered by where it begins in the file; nodes standing as values and named by USE are those of the name scopes) to which no ROUTE leads and which is not mapped by IS, directly or through the interface of the node's own prototype, holds the value written last for it in that node, read as a value of the field's kind and coerced to the field's type; where the file gives no value nothing is stored, so the default counts; every value in the file is for a field the node has; and every connection along which values are forwarded comes from a ROUTE or an IS in the file.",
  "every text, with prototypes and Scripts nested to any depth, any number of repeated attributes, and all nodes and fields; the targets of USE are pinned down if no default of a prototype's field is a node",
  "attributes of one node are read while values of other nodes are forwarded through connections, nested nodes are created and prototypes instantiated; that nothing else touches the field is an invariant over the whole reading",
  ["vrml/vrml97/parseprocessor.py: ParseProcessor.Node, Attr, field", "vrml/node.py: PrototypedNode.instantiate", "vrml/route.py: ROUTE, IS, _forward", "vrml/protofunctions.py: setField"])
p("C79", "Children, IS mappings, defaults and Scripts are as written",
  "After reading a file, each scene graph (of the file and of every PROTO body) has as children exactly the nodes standing at its top level, in order; each prototype has exactly the IS mappings written in its body, in order; each field of a prototype has the default written in the last declaration of its name (nodes included), or the default of its type for an EXTERNPROTO; and each Script has, for every name, exactly the field or event of the last declaration of that name, with the value written there, besides the fields that every Script has.",
  "every text, with prototypes and Scripts nested to any depth",
  "the lists are built up over the whole reading, while nested prototypes, bodies and nodes change the same tables",
  ["vrml/vrml97/parseprocessor.py: ParseProcessor.rootItem, Proto, Script, fieldDecl, ScriptFieldDecl, ScriptEventDecl, IS", "vrml/node.py: prototype", "vrml/vrml97/scenegraph.py: SceneGraph", "vrml/vrml97/script.py: Script"])
p("C80", "Which files without prototypes are read",
  "A file without PROTO and EXTERNPROTO that the grammar accepts is read, rather than rejected with an error, exactly if: every node is of a known type; every attribute is for a field (not an event) of that type, and its value can be read as a value of the field and is accepted by it (a node or NULL for SFNode, nodes for MFNode; nodes are also let pass for SFBool, where they are TRUE, and for fields of strings, which get the texts of the nodes); every declaration in a Script has a known type; there is no IS; and every name in USE and ROUTE was given by a DEF that begins earlier in the file. The names known afterwards are exactly those given by DEF. Two files that are read can be joined into one that is read, and the first items of a file that is read are read by themselves.",
  "every text without prototypes, nodes and Scripts nested to any depth",
  "rejection can come from any place in a file of any size, and depends on the names given before it",
  ["vrml/vrml97/parseprocessor.py: ParseProcessor.Node, Script, Attr, field, USE, ROUTE, SFNull", "vrml/protofunctions.py: getField, setField", "vrml/vrml97/scenegraph.py: SceneGraph.getDEF, regDefName", "vrml/field.py: BaseField.coerce"])
p("C81", "Scenes of built-in nodes survive being saved and loaded",
  "Every scene made of the built-in node types (any number, nesting, sharing by name, routes), with values that fit their fields, is written to a text that is read again as the same scene; in particular a new node of every built-in type except FontStyle. Scripts with any declarations may be among the nodes if their url is empty and their declared fields have the values of their declarations. Every field that the library declares for a type is a field of the nodes read from files, and every type of its fields and events can be the type of an event in a PROTO interface or a Script. Left out, because the writer breaks them: lists of strings that are neither empty nor the default; FontStyle with its default font family, which is written as a text that cannot be read.",
  "all scenes over the built-in types, all values, all formatting options made of ignorable text",
  "there are unboundedly many scenes, values and formatting options; the table of types has over 300 fields whose defaults are compared with values in different ways",
  ["vrml/vrml97/basenodes.py: all classes", "vrml/vrml97/basenamespaces.py: basePrototypes", "vrml/arrays.py: safeCompare", "vrml/vrml97/linearise.py: Lineariser", "vrml/vrml97/parseprocessor.py: ParseProcessor"])
p("C82", "Reading stores what the field's coercion returns",
  "For every field type that files can have values of, and every value a file can give to a field of that type (numbers, texts, lists of them, NULL, nodes, lists of nodes): the value read into the field is what the field class's coercion returns for it, with the element type, shape, rounding and clipping of the stored array, and the file is refused exactly if the coercion raises (wrong number of components, integers beyond 32 bits, nodes where numbers are expected). The same holds for the default of every field of every built-in node type.",
  "all registered field types with a method in the reader, all values of any length, all defaults of the built-in nodes",
  "lists are of any length, and the coercions take different paths for lists, nested lists, arrays and objects",
  ["vrml/fieldtypes.py: coerce of all field classes", "vrml/node.py: _SFNode.coerce, _MFNode.coerce", "vrml/vrml97/parseprocessor.py: ParseProcessor.Field and the methods named after field types", "vrml/field.py: BaseField.fset, getDefault"])
p("C83", "Single matrices and the centre of rotation",
  "transformMatrix and itransformMatrix return the two matrices that transformMatrices returns as a pair; a local point goes through the transform as VRML97 prescribes and then through the parent matrix. Given a parent matrix and its inverse, the two are mutually inverse exactly when the local matrix commutes with the parent's. center returns a result exactly for transforms without translation and center, the origin of the parent; for all others it raises ValueError.",
  "every combination of fields present or absent, every point, every parent matrix",
  "an identity between matrices for all real parameters; each test fixes one parameter set",
  ["vrml/vrml97/transformmatrix.py: transformMatrix, itransformMatrix, center"])
p("C84", "Texts and bytes",
  "as_8_bit encodes every text without surrogates and raises for every other; as_str decodes bytes to a text exactly if they are its encoding, and raises otherwise; so both round trips are the identity. as_unicode never raises: it returns what as_str returns, or one character per byte where that raises, and exactly then the text has other bytes. The bytes of a joined text are the joined bytes. Any other object is treated as its str(x).",
  "every text and every sequence of bytes",
  "code points and byte sequences are unbounded; overlong forms, surrogates and truncated sequences are easily missed by examples",
  ["vrml/_bytes.py: as_8_bit, as_str, as_unicode"])
p("C85", "Nodes put into a scene get its root",
  "However a graph of nodes is built by assigning node fields through fset (as constructor and parser do), in whatever order, every node in a field of a node with a root scene graph has a root scene graph. One assignment changes the roots of exactly the nodes at or below the nodes put in that had no root, and gives them the root of the node assigned to (also to nodes below that had another root). It completes on every graph without cycles. Appending to a child list, and assigning the attribute (node.field = x), give no root.",
  "every history of assignments to SFNode and MFNode fields, every graph (sharing included)",
  "the order in which a graph is put together and the sharing of nodes have no bound",
  ["vrml/node.py: _SFNode.fset, _MFNode.fset, RootScenegraphNode.fset"])
p("C86", "Which event cascades stop",
  "With event ports anywhere in the routes, setting a port stops exactly if no event port on a cycle of routes can be reached from it; the outcome is then independent of the recursion depth, every port reachable by routes and no other is delivered to, and every value delivered is the value set, or None from an event port on the way, coerced along a path of routes. Since an IS mapping makes routes both ways, sending an event to a prototype instance's mapped event port, or setting anything with routes to the field it is mapped to, never stops.",
  "every finite route graph with event ports, every port and value set",
  "route graphs and their cycles have no bound, and a test of a cascade that never stops cannot finish",
  ["vrml/route.py: ROUTE._forward, IS", "vrml/field.py: Event.__set__", "vrml/event.py: Event.visited"])
p("C87", "Files whose values go round for ever",
  "While a file is read, a value given to a field of a prototype's instance is refused exactly if the value's type is wrong or the connections from the field (IS mappings and ROUTEs, followed through fields and events) lead to an event on a cycle of connections or to a name the node there does not know (given that no coercion raises anything but ValueError or TypeError). In particular, when a prototype maps one of its fields and one of its events to the same field of a node in its body (the way exposed fields are mapped), every continuation of the file by an instance that gives that field a value is refused, whatever the value.",
  "every file text, every prototype and every value given in an instance; every store of nodes and connections",
  "the ways in which nodes can be connected have no bound, and whether a cascade ends cannot be seen from finitely many runs",
  ["vrml/vrml97/parseprocessor.py: ParseProcessor.Attr, .IS", "vrml/route.py: ROUTE._forward, IS", "vrml/node.py: Node.__init__, PrototypedNode", "vrml/field.py: Event.__set__"])
p("C88", "Saving what was loaded gives the same text",
  "A scene of built-in nodes and Scripts (without prototypes, under the conditions of C81 and C71) is saved as a text that can be loaded; saving the loaded scene graph gives the same text again, character by character, and does not change the scene graph. The same holds when the formatting options of the second saving differ: the loaded scene and the original one are saved as the same text.",
  "every scene of built-in nodes and Scripts with any declarations, of any size, depth and sharing, every set of values that fit, every choice of formatting options that end lines",
  "texts and scenes are unbounded; a test shows the fixed point for one file only",
  ["vrml/vrml97/linearise.py: linear, Lineariser._sceneGraph, _Node, _attrDict, _canUse, _preroute", "vrml/vrml97/parseprocessor.py: ParseProcessor", "vrml/protofunctions.py: getField"])
p("C89", "Copies are saved as the same text",
  "node.copy() followed by toString() gives the same text as toString() of the node itself, with all options, for every node that is not below itself; later changes to the copy (its fields, arrays and lists) leave the text of the original as it was; a copied scene graph, with its ROUTEs and DEF table, is saved as the same text as the original, including the names that saving gives to routed nodes without one. A node that is below itself is saved differently from its copy.",
  "all heaps of nodes, classes, field values, ROUTEs, DEF tables and writer options",
  "A test copies a few nodes; that no combination of sharing, names, routes and options makes the texts differ needs a proof over all heaps.",
  ["vrml/node.py:Node.copy", "vrml/vrml97/scenegraph.py:SceneGraph.copy", "vrml/field.py:BaseField.copy", "vrml/vrml97/linearise.py:Lineariser.linear"])
p("C90", "Files that follow the rules for prototypes are read",
  "A VRML97 file is read without an error if, in the order of the file: every node is of a prototype declared before it (in the same file or body, or around it) or of a built-in type; every value is for a field of that type and can be read as a value of it; every name in USE and ROUTE was given by DEF before in the same file or body; IS connects a field of a node in a body with an interface field of the same kind, or an event with an event; a ROUTE from a field leads to a field of the same kind. Afterwards the names given by DEF denote nodes with the fields and events of their types, and the scene graph has the file's prototypes with the declared interfaces.",
  "all files with PROTO and EXTERNPROTO declarations nested to any depth, any number of instances, IS mappings, routes and Scripts (without PROTO, EXTERNPROTO or ROUTE inside a Script and without nodes as interface defaults)",
  "A test loads particular files; that no combination of nesting, sharing, forwarding through IS and ROUTE makes the processing raise needs an invariant over all stores and connections.",
  ["vrml/vrml97/parseprocessor.py: ParseProcessor", "vrml/node.py: Node, PrototypedNode", "vrml/vrml97/scenegraph.py: SceneGraph.getProto, addRoute", "vrml/route.py", "vrml/field.py: BaseField.fset"])
p("C91", "What was loaded can be saved and loaded again",
  "When a VRML97 file of built-in node types without prototypes has been loaded, a node that was given no DEF name stands in one place of the scene only. If moreover no two nodes have the same DEF name, Scripts leave url empty and do not declare url, directOutput or mustEvaluate anew, their declared fields still have the values of their declarations, the values have a text form that can be read, every FontStyle has an explicit family, the scene is not empty and its ROUTEs are between nodes of the scene, then the loaded scene can be saved, saving changes nothing in it, loading the saved text gives the same scene (types, DEF names, values, sharing, routes), and saving that gives the same text.",
  "all files without prototypes, of any size, nesting and sharing by USE (including cycles); all formatting options that produce readable texts",
  "The existing scenes in tests are fixed; that whatever the reader can produce is something the writer can write and the reader can read again relates all files to all files.",
  ["vrml/vrml97/parseprocessor.py: ParseProcessor", "vrml/vrml97/linearise.py: Lineariser", "vrml/vrml97/scenegraph.py: SceneGraph.regDefName, getDEF", "vrml/vrml97/basenodes.py"])
p("C92", "Edited scenes can be saved, and what is loaded is what the last edits left",
  "A program starts with an empty scene or with a loaded file and makes any sequence of edits: it creates nodes of built-in types, assigns fields (a refused value changes nothing), changes the children, names nodes with regDefName, adds and removes ROUTEs. Provided each stored value has a text form that can be read, no node without a name is put in a second place and no name is given to two nodes, and provided that in the end the scene has a child, the ROUTEs are between nodes of the scene and every FontStyle has an explicit family: the scene can be saved, loading the text gives the same scene, and saving that gives the same text. Scripts may be among the nodes (of a loaded file); of their fields only directOutput and mustEvaluate are assigned, the others are lost by the writer. Each field has the value it was last assigned (coerced), each node the name it was last given, and the scene the children it was last given, in order.",
  "all sequences of edits of any length, all scenes, all formatting options that produce readable texts",
  "Saving depends on an invariant of the whole scene (registered names, sharing, types of the stored values) that every edit must keep; tests try a few scenes built in one way.",
  ["vrml/field.py: BaseField._set, fset", "vrml/node.py: RootScenegraphNode.fset", "vrml/vrml97/scenegraph.py: SceneGraph.regDefName, addRoute", "vrml/vrml97/linearise.py: Lineariser", "vrml/vrml97/parseprocessor.py: ParseProcessor"])
p("C93", "Assigned values spread along ROUTEs, and are saved",
  "In a loaded scene, assigning a field or event of a node ends (also when ROUTEs go in circles) and stores the value in exactly the fields to which ROUTEs (or IS in prototypes) lead from it, directly or through further fields, provided the types on the way keep the value; no other field, no node, name, ROUTE or child changes. After any sequence of assignments a field has the value of the last assignment that led to it, or its old value. In a file without prototypes the ways are exactly the ROUTE statements (set_ and _changed spellings resolved), if these do not start at Scripts, or stand outside the nodes. A list of nodes set with fset (instead of assigned) is stored and goes nowhere. If the values have a readable text form, the scene can then be saved, and loading the text gives each field that last value.",
  "all files, all nodes and fields, all graphs of ROUTEs with or without cycles, all sequences of assignments",
  "Whether an assignment ends and what it reaches depends on the whole graph of connections, which a test fixes; the order of many assignments through shared ROUTEs has unboundedly many cases.",
  ["vrml/field.py: BaseField._set, fset, Event.__set__", "vrml/route.py: ROUTE._forward, ROUTE._bind, IS", "vrml/event.py: Event.visited", "vrml/vrml97/parseprocessor.py: ParseProcessor.ROUTE", "vrml/vrml97/linearise.py: Lineariser"])
p("C94", "Every change is signalled; matrices follow ROUTEs",
  "In a loaded scene, every field that an assignment changes, itself or along ROUTEs, sends a signal with the value it stores: after the assignment each field has the value that its last such signal told of, or its old value if it told of none; only fields that connections lead to from the assigned one send signals. Therefore, in a program that assigns fields and events, reads fields, makes node paths, asks for matrices and uses the cache in any order, a node asked for its local matrices (or a path for its matrix) answers with those made of the fields it has now, including values that came along ROUTEs after the matrices had been cached.",
  "all scenes and graphs of ROUTEs, all sequences of assignments, queries and cache uses, all flags (paths: except scaling without rotation, C35)",
  "A stale cached matrix needs a particular order of queries and a change that arrives from afar; the orders and graphs are unbounded.",
  ["vrml/route.py: ROUTE._forward", "vrml/field.py: BaseField.__set__, fset", "vrml/cache.py: CacheHolder.depend, clear", "vrml/vrml97/basenodes.py: Transform.localMatrices", "vrml/vrml97/nodepath.py: _NodePath.transformMatrix"])
p("C95", "Editing while ROUTEs are live",
  "A program starts with an empty scene or a loaded file of library nodes and, in any order, creates and names nodes, moves them, adds and removes ROUTEs, and assigns fields and events. Each assignment is carried to exactly the fields that the ROUTEs of the scene lead to at that moment: along ROUTEs just added, and no more along ROUTEs removed. Whenever the scene is saved, what is loaded is the scene as it then is: a field has the value of the last assignment that reached it (even if the ROUTE it came along has gone since), a field that nothing reached has its old value, and the loaded scene saves as the same text. The nodes may be Scripts: an event that a Script produces is carried, and saved, in the same way.",
  "all programs of such actions, of any length, and all graphs of ROUTEs at every moment",
  "Which fields an assignment reaches depends on all earlier additions and removals of ROUTEs; histories are unbounded.",
  ["vrml/vrml97/scenegraph.py: SceneGraph.addRoute", "vrml/route.py: ROUTE.bind, _forward", "vrml/field.py: BaseField.__set__", "vrml/vrml97/linearise.py: Lineariser.linear", "vrml/vrml97/parser.py: Parser"])
p("C96", "Order of what is written",
  "The text of a scene, or of a file with prototypes, does not depend on the order in which the fields and events of node classes, Scripts and prototype interfaces were declared; and of a node that is written in full, exactly the attributes that are not left out stand in the text, each name before its value, ordered by field type name and, for one type, by field name (characters compared by code point).",
  "all scenes and files, all orders of declaration, all classes whose fields have different names",
  "One example shows one order of declaration; independence ranges over all permutations.",
  ["vrml/vrml97/linearise.py: Lineariser._attrDict, _eventDict, _fieldDict, namekey", "vrml/field.py: BaseField.__lt__", "vrml/protofunctions.py: getFields"])
p("C97", "Weak-keyed dictionary",
  "The package's weak-keyed dictionary behaves like a plain dictionary over the objects themselves from which an object's entry is deleted when it dies: every set, setdefault, update, get, indexing, membership test, deletion, pop and popitem returns or raises the same, in every history of operations and deaths; a new object that gets the identity of a dead one has no entry; asking a living node for its IS map gives the same mapping every time. (Length, truth value and iteration always raise AttributeError.)",
  "every history of operations, deaths and births of objects, including reuse of identities; all values",
  "collection can occur between any two operations; histories are unbounded",
  ["vrml/weakkeydictfix.py: WeakKeyDictionary", "vrml/node.py: ISMAPS, ismaps"])
out = os.path.join(os.path.dirname(os.path.abspath(__file__)), '..', 'properties.jsonl')
with open(out, 'w') as f:
    for x in P:
        f.write(json.dumps(x) + '\n')
print(len(P))
