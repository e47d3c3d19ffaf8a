STATUS = {}
NOTES = {
    "C07": "Every text skipped and only such text; plus whole files: texts with the same tokens are read as the same scene, with and without PROTO declarations, whatever the header line.",
 'C12': 'For every field table, coercion function and history; pure-Python and accelerated classes.',
 'C13': 'Rejected set: ValueError, unchanged heap, no notification.',
 'C14': 'First and later reads of a default.',
 'C15': 'Proved for the accelerated class; the pure-Python class is shown to keep the value (C15_refuted_pure refutes the restoring there).',
 'C16': 'Agreement proved for histories of gets/sets/quiet sets; deletion differs (refutation theorem).',
 'C17': 'Weak field never returns a dead node, tracks deaths, forgets.',
 'C24': 'False for item deletion (`del l[i]` deletes nothing): refutation; proved for every other operation.',
 'C25': 'Exact condition for reconciliation per operation; false for += / duplicates: refutation.',
 'C26': 'Contents after extension proved for the extended list; `node.children += x` rebinding refuted.',
 'C27': 'Proved for fields assigned through the wiring path; default-read lists and plain attribute assignment are silent: refutations.',
 'C28': 'Weak list contents after any interleaving of operations and collections.',
 'C29': 'Live-only and completeness proved for quiet iteration; a death during iteration can skip a live item: refutation.',
 'C43': 'Termination for every network, with event ports only as ends; per-port write count bounded by number of routes leaving the set port; once-only is false for diamonds: refutation.',
 'C44': 'Exact reachability, path-carried values, and last-stored value; networks in which event ports only end routes.',
 'C45': 'Event ports as ends of routes; C45_refuted_* show what happens in the middle of routes.',
 'C30': 'Latest holder and its data; frame for other clients/keys; any history.',
 'C31': 'Invalidation at the moment of the notification and until new data is stored.',
 'C32': 'Id reuse modelled explicitly (addresses); unbounded histories with deaths.',
 'C33': 'A holder replaced by a newer one for the same client and key removes the newer one when called: refutation; otherwise proved as stated.',
 'C34': 'Any history, any flags; instantiated with the real matrix computation.',
 'C35': 'False for scale=True, rotate=False (center not watched): refutation; proved for all other flag combinations.',
 'C36': 'Non-zero axes and scale components; the zero-scale case is shown not to cancel.',
 'C37': 'Real arithmetic.',
 'C38': 'Exact product formula.',
 'C39': 'Any path length.',
 'C40': 'Perspective fully proved; orthographic matrix maps the box to the cube only for column vectors, it is transposed with respect to the documented row-vector convention (refutation).',
 'C41': 'Where both are defined (non-zero axis, non-degenerate parameters).',
 'C42': 'Exactness, first plane, never culls a visible set.',
 'C60': 'VRML97 point semantics of localMatrices and of path matrices.',
 'C61': 'Exact description; C61_refuted_parent shows that the pair is in general not inverse, contrary to the documentation.',
 'C18': 'All 39 field classes through 12 coercion kinds, any element type and dimension.',
 'C19': 'Arrays given as input are assumed well formed (numpy arrays are).',
 'C20': 'NaN components are accepted and stay NaN: refutation; otherwise in range.',
 'C21': 'Nested lists as finite trees.',
 'C22': '#rgb is not expanded (refutation); everything else proved, CSS table evaluated in full by the kernel.',
 'C23': 'Matrix fields reject every plain list (refutation); vectors and multi-vectors proved.',
 'C46': 'Complete description of lookup; looking up a storage name returns the string instead of the field (refutation).',
 'C47': 'Any hierarchy; remark theorem: a derived non-field does not hide the base field from the enumeration.',
 'C48': 'One-step and whole-history characterisation; direct DEF assignment and multi-scene registration make the table stale (refutation).',
 'C49': 'Innermost-definition characterisation for the API, and equality with block-structured scoping for whole files of nested PROTOs; a copied scene graph loses its enclosing scenes (theorem).',
 'C50': 'Equal reads, no change to old objects, one copy per pass, mutual independence; refuted: copied child lists are not observable and a copied scene graph keeps the original children.',
 'C51': 'Unmapped fields independent; mapped fields linked in every pair of instances (a user would expect them independent).',
 'C52': 'Longest common prefix, equality, concatenation.',
 'C53': 'Exact; C53_refuted_third_level shows a third-level path staying valid.',
 'C54': 'Any graph on which the recursion completes, and it completes on all acyclic graphs; diverges on cyclic ones (refutation).',
 'C55': 'Exact in both cases; C55_refuted_arrays shows the deviation from equality.',
 'C62': 'Any hierarchy.',
 'C01': 'Every text of characters; the string rule of the grammar and the SFString conversion, in any following context.',
 'C02': 'Every list of strings and every ignorable formatting option; both layouts.',
 'C03': 'Every text of the shape of a Python float repr; value compared as an exact decimal with sign of zero; inf and nan are not readable (theorem).',
 'C04': 'Any length, chunked layout included.',
 'C05': 'Row lengths 1 to 100, any number of rows; longer rows make the writer loop for ever (theorem).',
 'C06': 'Every integer; hexadecimal texts; a leading zero is rejected (theorem).',
 'C07': 'Exactly the ignorable texts are skipped; a comment without newline is not.',
 'C08': 'Every production and every text has exactly one outcome.',
 'C09': 'Round trip of whole scenes: nodes, Scripts, DEF, USE, shared nodes, NULL, MFNode lists, scalar fields, routes (any graph and sharing). What GoodScene excludes is refuted: empty scenes, unnamed sharing, array defaults, duplicate names, NULL in lists, string lists (C56), type names (C57), long rows (C05). Prototypes: C67.',
 'C10': 'The writer of a shared node: first occurrence is the definition, later ones USE; any graph of nodes whose DEF names are distinct.',
 'C11': 'Names generated for routes: unique, and the routes resolve to the same nodes after reading.',
 'C56': 'The user expectation (readable text) is false for every non-empty list; this is what is proved: for the attribute, for one-node files, and (C56_scene_rejected) for every scene in which some written node has such an attribute, by counting brackets.',
 'C57': 'Exact characterisation of the type names that can be read back at root level; names with a keyword as prefix are refuted.',
 'C58': 'Every default of the 73 built-in classes is accepted except one (refutation).',
 'C59': 'Every field declared by the built-in classes can be read from a file except the listed ones (refutation); events and registration complete.',
 'C63': 'Python text-to-number conversion is a parameter; numbers are rationals, infinities or NaN.',
 'C64': 'Any number of planes and points over any ordered field; boxes and convex hulls.',
 'C65': 'Any class hierarchy and argument list; pure and accelerated notification order.',
 'C67': 'C67_round_trip is for all files that satisfy GoodFile (Spec/ProtoTrip.lean); C67_without_prototypes ties the model to that of C09; C67_refuted_write_again: no such file can be written a second time after reading.',
 'C68': 'For every interface with legal names, types and defaults (GoodInterface).',
 'C66': 'Every form of argument; C66_refuted_still_writable shows that a scene graph that ever got a function cannot be written.',
 'C69': 'For every text; C69_refuted_no_cycles shows that acyclicity is not among the guarantees.',
 'C72': 'By induction on derivations: each grammar expression has a fixed effect on the stack of open brackets. C72_refuted_externproto shows that the restriction is needed.',
 'C71': 'C71_interface_round_trip for all good scenes; the two refutations: the text never depends on values or IS of declared fields.',
 'C70': 'C70_same_parse is production by production; C70_reads_vrml97 is an equivalence for whole files; the C70_refuted theorems are findings about the header and the new words.',
 'C73': 'C73_prototype_scopes: the reader (with nested prototypes, all objects in one store) against the scope rules of Spec/Scopes.lean, for every text.',
 'C74': 'C74_def_scopes under the stated hypothesis; C74_refuted_default_nodes shows that it is needed.',
 'C76': 'C76_one_store is a refinement: the reader with one store (FullRead) against the readers of single scenes (SceneRead, ProtoText); C76_round_trip and C76_scene_round_trip carry C67 and C09 over. Files with nested PROTOs, EXTERNPROTOs or node defaults are outside the refinement (C73, C74, C77 speak about them).',
 'C75': 'Forwarding with any graph of connections (C75_value_reaches_linked_fields) and which connections a file makes (C75_instances_are_linked); C75_refuted_independent_instances is the witness that instances are not independent.',
 'C77': 'C77_interfaces_as_declared for every text: interfaces against Spec/Interface.lean, with the numbering of prototypes of Spec/Scopes.lean.',
 'C78': 'C78_field_values and C78_content_as_written: the reader with one store against the statements of Spec/Content.lean, for every text; C78_connections says where connections come from. With names = true (no nodes in prototype defaults) USE is resolved by the scopes of C74, with names = false the nodes named by USE are left open.',
 'C79': 'C79_structure_as_written, the other half of Content (Spec/Content.lean).',
 'C80': 'C80_accepted_iff_fine is an equivalence: the reader against the rules Fine (Spec/Accept.lean), for every text without prototypes. Files with prototypes are outside it. Names of Python attributes of Script (reserved) are refused in Script declarations by the model; the code would let some of them pass.',
 'C81': 'The abstract table of node types of C09, C69, C73-C80 instantiated with the table generated from basenodes.py (C81_builtins); C81_round_trip is C76_scene_round_trip for it with no hypothesis about node types left. About floats: the numbers in the scene and in the defaults survive as text (C03). C81_refuted_font_style is a witness of the exception.',
 'C83': 'Real arithmetic. C83_refuted_inverse and C83_refuted_center are the findings: with a parent the two matrices are in general not inverse, and center raises whenever there is something to compute.',
 'C84': 'Python 3 branch, encoding utf-8 (the default); the codec itself is written out in the model (RFC 3629).',
 'C85': 'Scene graphs stay alive. C85_refuted_current_root_kept: contrary to the documentation a node below the assigned one loses its root; C85_refuted_append: changes that bypass fset give no root.',
 'C86': 'Routes between existing ports; RecursionError is non-termination here. C86_mapped_events: events mapped by IS never stop.',
 'C82': 'Two models of the same code compared: the coercions of Model/Coerce and Model/NodeCoerce (C18-C23) and the one used by the reader and writer of C09-C11, C69-C81. C82_reader_gives says that the reader produces only values of the forms compared. str(node), which contains a memory address, is one fixed text in both.',
    "C87": "Coercions of values forwarded to a field of another type are a parameter (any function); the exact condition assumes that they raise only ValueError and TypeError.",
    "C89": "Conditions: the fields of a class that are shown are among those copied (getFields), no dangling references. C89_refuted_below_itself: a node that is below itself.",
    "C88": "Scripts are covered when their declared fields have the values of their declarations (C71: the writer loses others) and their url is empty (the writer breaks others). Files with prototypes cannot be saved again (C67_refuted_write_again). Conditions on values as in C09/C81.",
    "C90": "The rules are sufficient, not necessary (for files without prototypes C80 has the exact condition). Not covered: PROTO, EXTERNPROTO and ROUTE inside a Script; nodes as defaults of interface fields (DEF names in them leak, C74).",
    "C91": "The conditions on the loaded scene are in Spec/Loaded (Savable) and, with Scripts, Spec/LibraryScripts (SavableScripts); numbers are abstract, that they survive as texts is a condition on the values. Prototypes are excluded: a read-back PROTO cannot be written again (C67_refuted_write_again).",
    "C92": "Edits are in Model/Edit, the conditions in Spec/Edit (Allowed, Finished). Values that ROUTEs carry on count as further assignments of the history. Only node types of the library without prototypes; Scripts (Spec/EditScripts) come from the start, edits do not create them.",
    "C95": "A removed ROUTE is taken to be gone (pydispatch refers to it weakly; a program that keeps the ROUTE object is not modelled). Values that ROUTEs carry may hold nodes only if these have names; a node without a name is moved by an edit of a field from which no ROUTE leads. As in C93, the fields reached make the same value of what they are given, and an event that is reached has no ROUTE leading on. C95_scripts_*: Scripts too; what a Script does when it gets an event is not modelled (the package has no interpreter), its events are assigned. C95_scripts_opened(_outer): the connections of a loaded file with Scripts are its ROUTEs if none starts at a Script, or if all stand outside the nodes (a ROUTE inside a Script may come before the declaration of the event).",
    "C94": "Signals of declared events are not in the log (nothing but ROUTEs listens to them in the library). Any computation of matrices for which unset and default fields give the same; C94_real_matrices_follow is the one of transformmatrix over the reals. Changes made by writing into a stored array in place are not covered (C34).",
    "C93": "Assignment is Model/Animate over the store of the full reader. Value kept on the way: KeepsValue in Spec/Animate (types that change or refuse the value, and events that lead on, are left out; event loops are C86 and C87). C93_saved: files without prototypes and Scripts, values without nodes.",
    "C97": "The methods inherited from CPython's weakref.WeakKeyDictionary are modelled as they work on `data`. Keys are compared by identity. Nothing in the package but `ismaps` uses the class.",
    "C96": "The order in which the IS mappings of a prototype body are stored is kept (it can matter if one field of a node is mapped twice).",
}
