# Design

Machine-checked model of pschanely/CrossHair (source in /repo) in Lean 4.33.0.

## Method

* Shallow functional models, one Lean definition per Python function, branch by branch; every definition cites file and lines and says what it simplifies. Exceptions are values.
* Symbolic values: theorems are stated about the *denotation* of the term CrossHair builds (SMT-LIB integers are `Int`, SMT-LIB `div`/`mod` are Lean's Euclidean `/` and `%`, Python's `//` and `%` are `Int.fdiv` and `Int.fmod`). A theorem for all `Int` therefore covers every model the solver could pick. A fork is an `if`: the search explores both sides, and a given value goes to exactly one.
* Property theorems live in `Props*.lean` files, specifications in `Spec*.lean`, helper lemmas elsewhere. Beside each property theorem an `example` shows a concrete case that meets its hypotheses.
* Where the code violates a property, a negation with a concrete witness is proved and the strongest true restriction is kept, with suffix `_partial` when part of the statement is missing.
* Theorems are tested against wrong programs: `seeded/LOG.jsonl` records each edit of the model, the claim it breaks, the theorems that then failed, and what was tightened after an edit survived.

## Trusted base

* Lean 4.33.0's kernel, and Mathlib only as a library of proved lemmas.
* Axioms: no theorem depends on more than `propext`, `Classical.choice` and `Quot.sound`; AXIOMS.md lists them for each theorem of the manifest. There is no `sorry`, no axiom of our own, no `native_decide`, `bv_decide`, `implemented_by` or `unsafe`. Finite tables and concrete witnesses use `decide +kernel`, which the kernel evaluates.
* That the model is the code: the definitions were written by reading /repo and are tied to it by the cited lines, not by translation.
* Taken as parameters or assumed, and stated in the theorems where they are used: the solver is right about the constraints it is given (no theorem is about z3 itself); character classes (whitespace, digits, word characters); floating point rounding; the operating system (files, clocks, processes); Python's tokenizer, compiler and bytecode interception.

## What is modelled

For each area, the parts of /repo/crosshair that its definitions cite, and what is left out.

* **Verif.Search** — the search tree, one exploration, status bubbling, the loop over paths, and verdicts. Programs are decision trees of questions to the solver; heaps, timeouts as clock values and the solver itself are left out (a timeout is an event).
  * core.py: lines 1249-1396
  * statespace.py: lines 126-149, 335-395, 404-422, 472-495, 526-613, 619-709, 805-1347
* **Verif.Ints** — integer operations on symbolic integers. Floats are left out.
  * builtinslib.py: lines 679-697, 852-884, 1118-1119, 1140-1151, 1252-1284, 1325-1362, 1388-1404, 1420-1421, 1427-1443, 1447-1463, 1474-1489, 1493-1496, 4942-4963, 5159-5194
  * mathlib.py: lines 56-59
* **Verif.Range** — ranges with integer arguments.
  * builtinslib.py: lines 2485-2511, 2545-2568, 2575-2586, 2595-2617, 2626-2642
* **Verif.Seq** — lazy sequences and the mutable list shell.
  * builtinslib.py: lines 3348-3364
  * simplestructs.py: lines 342-380, 401-454, 462-473, 480-513, 526-535, 541-545, 555-620, 625-822
* **Verif.Chars** — the lazily created characters of symbolic strings.
  * builtinslib.py: lines 3055-3063, 3085-3121, 3130-3142, 3147-3161, 3178-3234
* **Verif.Strs** — string algorithms. Formatting, case conversion and translation are left out.
  * abcstring.py: lines 38-51, 127-138, 147-158, 185-213, 280-310, 325-337, 351-366, 388-399
  * builtinslib.py: lines 43-48, 3261-3300, 3305-3324, 3412-3426, 3431-3448, 3489-3505, 3518-3560, 3565-3572, 3591-3741, 3845-3852, 3909-3913
* **Verif.Maps** — dictionaries.
  * libimpl/builtinslib.py: lines 1920-1955
  * simplestructs.py: lines 64-82, 109-116, 165-199, 211-215, 226-229, 237-244, 251-288, 296-309, 314-340
* **Verif.Sets** — sets.
  * simplestructs.py: lines 829-842, 935-938, 944-1053, 1161-1246
* **Verif.Dates** — dates, times and durations. Time zones other than fixed offsets, parsing and formatting are left out.
  * libimpl/datetimelib.py: lines 43-57, 76-160, 175-196, 474-483, 510-532, 558-609, 661-701, 706-718, 727-760, 797-799, 891-934, 963-971, 986-1019, 1101-1117, 1159-1171, 1180-1189, 1193-1205, 1209-1241, 1483-1511, 2262-2340, 2344-2366, 2417-2426
* **Verif.Wall** — the audit wall.
  * auditwall.py: lines 27-29, 37-75, 82-91, 100-127, 133-360
* **Verif.Hex** — hexadecimal conversions.
  * libimpl/builtinslib.py: lines 4034-4064, 4204-4214, 4221-4240, 4328-4360
* **Verif.B64** — base64.
  * libimpl/binasciilib.py: lines 20-85, 103-215
* **Verif.Pack** — struct packing. Floats and strings are parameters.
  * libimpl/structlib.py: lines 36-121, 129-130, 137-138, 185-326, 346-352
* **Verif.Opts** — options and directives.
  * codeconfig.py: lines 47-118
  * core.py: lines 1018
  * options.py: lines 21-33, 49-73, 89-91, 116-150, 154-215
* **Verif.Report** — messages and what commands print and return.
  * core.py: lines 817-818, 825-837, 846-890, 909-920, 931-935
  * main.py: lines 426-438, 506-516, 584-637, 661-714, 790-828, 839-866
  * statespace.py: lines 83-101
* **Verif.Watch** — the watcher and its pool.
  * main.py: lines 411-475
  * watcher.py: lines 100-127, 148-202, 207-211, 263-265, 281-286, 290-307
* **Verif.Pick** — selection and optimisation of examples, and the branch oracle.
  * diff_behavior.py: lines 91-103, 116-124, 130-177
  * path_cover.py: lines 42-51, 132-150
  * path_search.py: lines 83-137
  * pathing_oracle.py: lines 60, 78-86, 97, 149-169
  * statespace.py: lines 526-542
* **Verif.Contract** — gathering of conditions over class hierarchies.
  * condition_parser.py: lines 208-270, 287-350, 472-565, 576-600
* **Verif.Doc** — docstring sections.
  * condition_parser.py: lines 125-138, 353-429
* **Verif.Enforce** — enforcement of contracts on calls. Tracing at the bytecode level is left out.
  * condition_parser.py: lines 208-270
  * enforce.py: lines 24-29, 48-59, 73-136, 145-171, 192, 196-204, 220-282
* **Verif.Attempt** — one attempt at a call and the classification of exceptions. What Python code does is given by its outcome.
  * core.py: lines 183-216, 235-277, 1286-1333, 1517-1676
  * statespace.py: lines 54-80, 126-149
  * util.py: lines 706
* **Verif.Deque** — the deque. Lists are heap objects that behave like Python's.
  * collectionslib.py: lines 28-30, 39-168
* **Verif.TextIO** — the in-memory text stream.
  * iolib.py: lines 10, 14-39, 68-196
* **Verif.Clock** — the simulated clocks.
  * timelib.py: lines 12-17, 21-72
* **Verif.Rand** — random generators and the contract of randrange. Distributions are left out.
  * libimpl/randomlib.py: lines 28-40, 74-75
  * randomlib.py: lines 28-75, 95-99, 126-134
* **Verif.Builtin** — Replacements for built-in functions. Assignments to symbolic variables are an arbitrary type; symbolic booleans are functions of the assignment. Dicts made from mappings or with keyword arguments are not modelled (the resulting shell is in Maps); identity of list items in index is not modelled (Python finds a NaN object, == does not).
  * builtinslib.py: lines 2459-2482, 3232-3255, 4757-4802, 4850-4881, 5203-5227, 5245-5276, 5305, 5309, 5341-5369
  * simplestructs.py: lines 165-184
* **Verif.Scope** — Context managers over global state. One thread; functions, code objects and modules are numbers, all functions hashable. Scopes entered through ExitStack are nested with statements here.
  * core.py: lines 148-162, 1106, 1113-1120
  * enforce.py: lines 191, 195-219
  * pure_importer.py: lines 9-11, 20-28
  * statespace.py: lines 270-287
  * tracers.py: lines 221-222, 226-238, 243-268, 291-315, 401-410, 417-431
  * util.py: lines 328-336, 520-572, 633-645, 655
* **Verif.Outcome** — Comparison of outcomes in diffbehavior and the differential tests. Subclasses of containers, bytearrays, and user-defined __eq__ are not modelled; each iterator occurs once.
  * behavior_compare.py: lines 63, 117-170
  * core.py: lines 237-277
  * diff_behavior.py: lines 33-36, 47-54, 76-88, 241-317
* **Verif.Copy** — Deep copies (copyext.py with the functions of the standard library's copy.py it calls). Classes with their own __deepcopy__, __reduce__ or __setstate__, mapping proxies and views of dicts are not modelled; a realized symbolic value is an atom (realized containers are not).
  * copyext.py: lines 31-34, 56-100, 116-155
  * core.py: lines 291-293
* **Verif.Unify** — Type unification (dynamic_typing.py). TypedDicts, tuple subclasses, bounds of type variables and generic classes that are callable are not modelled; a class hierarchy is a relation with the properties listed in Hier.Ok, and class parameters are taken to be passed on unchanged to superclasses.
  * dynamic_typing.py: lines 15-18, 90-214, 229-243
* **Verif.Json** — JSON (jsonlib.py). Floats are a parameter: their texts have the form of JSON numbers and are read back as the same float. Hooks, `default`, `skipkeys`, `allow_nan=False`, circular references, keys that are not strings and the positions in error messages are not modelled; `int(text, 16)` is modelled for ASCII characters.
  * jsonlib.py: lines 1-9, 28-41, 47-78, 89-114, 225-404, 409-412, 427-467, 505-514, 518-571, 578-579, 586-667, 671, 678-714, 738-743, 790-835, 850-875, 916-951
* **Verif.Names** — Names of targets (fnutil.py, util.py extract_module_from_file, main.py checked_load). Importing is taken not to change the world; symbolic links, file line numbers in the text of a target (its regular expression) and exceptions from getattr are not modelled.
  * fnutil.py: lines 204-351, 357-377
  * main.py: lines 659-672
  * util.py: lines 588-599
* **Verif.Mask** — Sets of characters (unicode_categories.py CharMask, relib.py single_char_mask). The tables of Unicode (digits, word characters, case) are parameters; sets nested in sets do not come from `sre_parse` and are not modelled; the assertion in `maybe_add_bounds` is left out.
  * relib.py: lines 77-97, 104-117, 123-213
  * unicode_categories.py: lines 34-68, 79-141
* **Verif.Regex** — Regular expressions (relib.py). The string is taken to be concrete: on each path the matcher does what it does for the strings that meet the path's conditions. Expressions are what sre_parse makes of them, a set of characters standing for each single-character expression (see Mask); parsing, back-references, conditional groups, possessive and atomic groups (which raise ReUnhandled) are not modelled.
  * builtinslib.py: lines 3286-3306
  * relib.py: lines 226-229, 258-271, 418-694, 730-753, 769, 795-797, 821-835, 843-852, 868-901
* **Verif.Types** — Classes are numbers, and the answers of issubclass, the direct bases and abstractness are parameters. The solver is taken to follow an interpretation of all that it is told. Symbolic classes on both sides of a question are not modelled.
  * builtinslib.py: lines 2698-2725, 2741-2790, 2798-2827
  * core.py: lines 415-454
  * type_repo.py: lines 51-80, 91-106, 116-121, 129-153
* **Verif.Sigs** — Names and annotations are numbers; what unify answers is a parameter. Of calls the number of positional arguments and the names of keyword arguments matter. How signatures are found (resolve_signature) is not modelled here.
  * core.py: lines 457-487
  * dynamic_typing.py: lines 264-346
* **Verif.Skip** — Code is a tree of calls and changes of state; functions do not change state. Copies of arguments are the state itself. What unify answers is a parameter. The choice at the fork (fork_parallel) is an input; how its two sides are combined is C08.
  * core.py: lines 1057-1092, 1136-1195, 1550-1677, 1718-1832
  * statespace.py: lines 1284-1291
* **Verif.Codec** — Handlers of errors are functions of start and end of the error; the reasons of errors are left out, and so are handlers that return bytes when decoding, and the lookup of codecs by name. Python's own behaviour with errors is specified by the Unicode standard's maximal subparts, which Python follows.
  * encodings/_encutil.py: lines 15-30, 52-127, 152-169
  * encodings/ascii.py: lines 8-40
  * encodings/latin_1.py: lines 8-36
  * encodings/utf_8.py: lines 13-89
  * latin_1.py: lines 16-28
* **Verif.Arrays** — A path is seen under one interpretation of the solver's variables that satisfies all it has added; that the solver finds one if there is one is trusted. Keys, values and elements that live on the heap are not modelled here, nor are set operations inherited from collections.abc.
  * libimpl/builtinslib.py: lines 1788-1794, 1822-1859, 1866-1881, 1892-1917, 1922-1955, 1973-1996, 2004-2016, 2028-2077, 2093-2136, 2184-2206, 2211-2224, 2256-2263, 2291-2298, 2306-2323, 2335-2384, 2389-2401, 2413-2429, 2437-2481
  * simplestructs.py: lines 626-638, 661-663
* **Verif.Heap** — References are numbers (one interpretation of the solver's constants); an object is an address with contents; objects inside of objects are part of the contents; `unify` is any reflexive relation.
  * builtinslib.py: lines 269, 280-284
  * statespace.py: lines 1120-1174
* **Verif.Match** — Matches of str only; the blanks, digits and letters in references are those of ASCII.
  * libimpl/relib.py: lines 0-9, 264-287, 295-318, 333-384
* **Verif.Kinds** — Conditions are opaque; of a function only the names of its parameters and which have defaults; inspecting the source is not modelled.
  * condition_parser.py: lines 44-119, 141-158, 777-822, 903-913, 1031-1067, 1085-1097, 1129-1149, 1160-1164, 1178-1182
  * register_contract.py: lines 40-41
  * util.py: lines 228-241
* **Verif.Ops** — Seen under one interpretation of the solver's variables; elements are compared by type and value; keys have a lawful equality.
  * opcode_intercept.py: lines 63-64, 78-98, 107-201, 266-274, 290-297, 325-359, 421-436, 445-464, 472-509, 545-566, 574-604, 614-620, 1181-1232
  * simplestructs.py: lines 177-184, 617-663
  * statespace.py: lines 1215-1230
* **Verif.Stubs** — Annotations are characters with nested brackets; making one signature (exec and evaluation of annotations) is a result given with the function.
  * stubs_parser.py: lines 72-145, 268-316
* **Verif.Callbacks** — One callback for each instruction at most; frames, positions and callbacks are numbers; callbacks do not raise.
  * tracers.py: lines 407-510, 667-686
* **Verif.Decimal** — Digits are natural numbers below ten. Signals are listed in the order they are raised; flags of the context are not kept. FloatOperation and conversions from other types are not modelled.
  * libimpl/decimallib.py: lines 63-70, 109-113, 136-150, 164-174, 199-219, 229-236, 474-605, 624-666, 838-991, 995-1007, 1017-1072, 1076-1172, 1181-1219, 1228-1253, 1262-1367, 1386-1397, 1415-1515, 1527-1736, 2328-2402, 2437-2457, 2513-2527, 2724-2730, 2839-2848, 3694-3754, 3934-3940, 4281-4335
* **Verif.DecimalMore** — As for Decimal. Text is a list of characters.
  * libimpl/decimallib.py: lines 199-219, 261-298, 463-472, 687-711, 720-769, 776-837, 2304-2326, 2532-2629, 2754-2825, 3320-3362, 4824-4827, 5133-5134
* **Verif.Numeric** — A symbolic number is its value under one interpretation of the solver's variables; forks are conditions. Floats are rationals, infinities or NaN without signed zeros; rounding, the reading of literals by the solver and its power of reals are parameters. Complex numbers, fractions and decimals as operands are left out.
  * builtinslib.py: lines 455-459, 490-507, 516-568, 584-654, 666-706, 713-998, 1006, 1010-1104, 1117, 1131-1138, 1154, 1195-1197, 1222, 1289-1302, 1307-1314, 1529, 1566, 1579-1582, 1634-1651, 1672, 1685-1734, 1755-1757, 4680-4700
  * libimpl/builtinslib.py: lines 718-721, 726-728, 733-735, 740-741, 746-747, 752-755, 760-764, 768-772, 776-780, 784-787, 791-793, 797-798, 802-803, 815-817, 821-823, 827-829, 833-835, 839-841, 845-848, 852-859, 863-886, 890-891, 895-896, 954-959, 963-998
  * mathlib.py: lines 22-51, 69-96
* **Verif.Buffers** — bytes, bytearray and memoryview: contents as lazy cells (numbers or references into other objects), the mutators and their checks, views with slices, constructors, comparison, concatenation, case and strip. Not modelled: release, cast, realization of views, a list that is changed after it was given to bytearray(), hashing.
  * libimpl/builtinslib.py: lines 4001-4020, 4246-4250, 4362-4395, 4402-4408, 4461-4476, 4498-4510, 4538-4563, 4578-4580, 4585-4589, 4808-4835
  * simplestructs.py: lines 388-398, 640-656, 661-663, 685-692, 731-733
* **Verif.Explore** — The exploration loops of cover, search and diffbehavior over the path search of Search, an iteration of diffbehavior and of search composed of its parts, and the closing reports. Not modelled: what the parts compute, the optimisation loop of search (Pick has it), an error while formatting an example, the text of the report.
  * core.py: lines 238-280, 288-312, 1412-1491
  * diff_behavior.py: lines 86-87, 130-238, 259-317
  * main.py: lines 675-714, 809-828
  * options.py: lines 203-219
  * path_cover.py: lines 100-126
  * path_search.py: lines 56-62, 83-100
* **Verif.DateText** — Reading and writing the texts of dates, times, datetimes, durations and fixed offsets, with int() on ASCII text. Not modelled: strftime, ctime, repr, non-ASCII digits and white space, tzinfo classes other than timezone, fold.
  * builtinslib.py: lines 4942-4963
  * libimpl/datetimelib.py: lines 224-262, 337-435, 486-498, 627-639, 974-983, 1062-1074, 1566-1583, 1588-1596, 1877-1899, 2098-2129, 2435-2450, 2527-2546
* **Verif.Repro** — Texts of arguments as token lists, with the naming of shared objects, the clean-up of names and the formatting of bound arguments. Not modelled: characters (so a user string that contains a temporary name), objects that contain themselves, repr methods written by users other than calls, references to functions and classes beyond their being atoms.
  * builtinslib.py: lines 5199, 5222-5227
  * condition_parser.py: lines 166-178
  * core.py: lines 545-556, 694-704
  * path_cover.py: lines 92, 162-168
  * util.py: lines 396-421, 427-438, 520-522, 528-564, 574-585, 5196-5200, 5261-5276, 5365-5369
* **Verif.Zones** — Moments with zones, fold, local time, timestamps, hashes and time tuples. A tzinfo answers by a function of the reading; timestamps are rationals; localtime and gmtime are given by offsets. Not modelled: Windows branches, names of zones, strftime and strptime, zones whose answers vary between calls.
  * libimpl/datetimelib.py: lines 218-221, 452-465, 474-498, 641-643, 801-804, 1289-1315, 1366-1371, 1401-1414, 1483-1534, 1706-1714, 1725-1750, 1783-1841, 1856-1874, 1915-2081, 2176-2185, 2201-2215, 2219-2225, 2262-2340, 2344-2383, 2429-2457, 2495-2498, 2507-2517, 2626-2636
* **Verif.DecimalDigits** — Logical operations, shifts, scaling, exponents, classes, choices between decimals, neighbours, integers, comparisons with signals.
  * libimpl/decimallib.py: lines 308-316, 518-549, 668-685, 2404-2421, 2459-2511, 2631-2722, 2741-2752, 2827-2837, 2850-2853, 2955-2961, 2975-2981, 3144-3318, 3364-3452, 3458-3550
* **Verif.Analyze** — What is analysed in modules, classes and functions, places of messages, signatures and names of functions.
  * condition_parser.py: lines 208-274, 1231-1242
  * core.py: lines 838-928, 951-1054, 1210-1246
  * fnutil.py: lines 50-59, 106-109, 156-197, 380-391
* **Verif.Inputs** — Arguments of calls, enumerations, typed dictionaries, immutable values.
  * core.py: lines 300-317, 510-518, 728-735, 758-814, 1679-1713
  * statespace.py: lines 1176-1178
* **Verif.Oracles** — Heuristics for choosing branches: coverage, breadth first, constraints, rotation.
  * pathing_oracle.py: lines 47-55, 99-148, 160, 176-216, 240-272
  * statespace.py: lines 526-542, 619-661
* **Verif.Differential** — Comparison of symbolic and concrete runs of single operations.
  * behavior_compare.py: lines 199-277, 370-377, 385-411, 436-485, 520-553
* **Verif.Pep316** — Conditions, mutable arguments and exceptions declared in docstrings.
  * condition_parser.py: lines 60-68, 102-138, 183-195, 208-274, 603-663, 667-739
* **Verif.DecimalFunctions** — Exponential, logarithms and the integer arithmetic behind them.
  * libimpl/decimallib.py: lines 2855-2927, 2987-3142, 4343-4537, 4552-4580, 4586-4663
* **Verif.CaseMaps** — Unicode tables in the solver, case methods, translate, unicodedata.
  * builtinslib.py: lines 3381-3410, 3574-3589, 3741-3843, 4841-4847
  * unicode_categories.py: lines 70-77, 144-169, 188-196, 202-311, 325-328, 337-528
  * unicodedatalib.py: lines 11-48
* **Verif.Proxies** — Values for annotations: which are made, and under which names.
  * builtinslib.py: lines 335-340, 424-474, 1534, 1766-1777, 1836-1839, 2059-2065, 2270-2298, 2886-2898, 3048-3056, 3101-3112, 4398-4399, 4621-4728, 5377-5446
  * collectionslib.py: lines 253-255
  * core.py: lines 296-314, 440-455, 493-558, 604-605, 714-752, 763-764
  * datetimelib.py: lines 2649-2666, 2689-2719
  * decimallib.py: lines 5201-5208
  * fractionlib.py: lines 8-12
  * iolib.py: lines 204-210
  * statespace.py: lines 1176-1178, 1240-1243
* **Verif.Registry** — Registration of contracts: histories of registrations, lookups and clears, with lists as objects.
  * register_contract.py: lines 19-29, 40-273
* **Verif.Editor** — Language server: the two threads and what is marked in the editor.
  * lsp_server.py: lines 58-82, 86-111, 148-149, 159-165
* **Verif.Floats** — Conversions, rounding and texts of symbolic floats.
  * libimpl/builtinslib.py: lines 739-742, 1294-1301, 1588-1632, 1644-1647, 1653-1656, 1663-1664, 1685-1757, 4972-4979, 5001-5013
* **Verif.Calls** — Interception of calls: positions on the stack, and the function behind what is called.
  * tracers.py: lines 110-128, 144-192, 1035-1044, 1056-1068, 1086-1101, 1113-1130, 1189-1338, 1382-1507, 1590-1712
* **Verif.Depths** — Stack depths computed for code (Python 3.12 and 3.13) and their cache.
* **Verif.Bounds** — Bounds of symbolic integers and the triggers that narrow them.
  * libimpl/builtinslib.py: lines 1174-1179, 1421-1463, 1472-1497, 1522-1525
* **Verif.Lazy** — Functions made up for arguments, and copies of objects of unknown type.
  * libimpl/builtinslib.py: lines 2888-2898, 2903-2917, 2956-2986, 2994-3000, 3005-3010
  * util.py: lines 467-479
* **Verif.DecimalFormat** — Formatting of decimals: specifiers, separators, padding, rounding and the place of the point.
  * libimpl/decimallib.py: lines 2459-2481, 3584-3668, 4855-4862, 4866-4867, 4883-5110
* **Verif.Passes** — Passes of watch mode: handing out files, collecting results, checking for changes, stopping, and the text that workers send.
  * main.py: lines 552-553
  * watcher.py: lines 10-13, 56, 60-69, 125-128, 141-143, 187-193, 198-199, 211-229, 234-235, 244-288
* **Verif.DateRepr** — Texts of dates and times: `repr`, `ctime` and the wrapper of `strftime`.
  * libimpl/datetimelib.py: lines 200-214, 266-332, 611-625, 1027-1034, 1041-1049, 1543-1564, 2085-2096, 2131-2157, 2476-2490
* **Verif.Wrappers** — Replacements of functions of `itertools` and `functools`, and in-place operators on objects of unknown type.
  * functoolslib.py: lines 6-17, 27-30
  * itertoolslib.py: lines 11-35
  * objectproxy.py: lines 17-25, 37-47
* **Verif.DecimalMake** — Making decimals from triples, integers, floats and texts, comparing them with other numbers, and powers modulo an integer.
  * libimpl/decimallib.py: lines 330-384, 408-456, 712-718, 1738-1826, 3962-3980, 4757-4800
* **Verif.DateInputs** — Making symbolic dates, times, durations and time zones, their realization, and `replace` of dates and times.
  * builtinslib.py: lines 1523-1526
  * libimpl/datetimelib.py: lines 468-471, 486-503, 817-822, 874-891, 1119-1127, 1243-1250, 1400-1414, 1658-1681, 2435-2450, 2519-2522, 2576-2594, 2604-2609, 2626-2636, 2649-2666, 2675-2684, 2690-2692, 2697-2700, 2705-2716
* **Verif.Keys** — Dictionaries and sets without hashing for keys with identity, equality and hash apart.
  * simplestructs.py: lines 64-82, 165-193, 226-229, 237-244, 296-309, 982-1000
  * util.py: lines 80-81
* **Verif.Cover** — The tests that `crosshair cover` writes for pytest, and its loops.
  * path_cover.py: lines 171-209, 717-787
* **Verif.Values** — The values of the solver's models as Python values: floats from their texts, reals and sequences.
  * smtlib.py: lines 6-12
  * statespace.py: lines 15-24, 180-192
* **Verif.Cells** — Small stores: dictionaries by identity, variables of dynamic scope, saved results and coverage.
  * tracers.py: lines 364-382
  * util.py: lines 93-103, 185-194, 201-202, 384-402, 631, 636-653
* **Verif.Sources** — Symbolic lists that take in items of objects of other kinds.
  * builtinslib.py: lines 2645-2672
  * simplestructs.py: lines 350-360, 550-557, 594-602, 607-613, 666-689, 708-750, 781-788, 799-800, 805-809, 818-819
  * util.py: lines 80-81
* **Verif.Aliases** — Variables that refer to the same symbolic list.
  * builtinslib.py: lines 2666-2667
  * simplestructs.py: lines 526-535, 702-704, 762-767, 778-788, 796-797
* **Verif.Protocols** — Built-in functions on objects of a program's own classes.
  * libimpl/builtinslib.py: lines 243-262, 4905-4913, 4924-4933, 5028-5058, 5063-5067, 5106-5112, 5120-5127, 5131-5136, 5279-5287
  * util.py: lines 72-81
* **Verif.Reflected** — Operations between symbolic values and objects of a program's own classes.
  * libimpl/builtinslib.py: lines 399-404, 562-563, 1016-1038, 2036-2039, 2137-2143, 2595-2597, 2669-2692, 3022-3045, 3349-3350, 3926-3927, 3962-3973, 4068-4070, 4162-4163, 4662-4677
  * simplestructs.py: lines 63-66, 277-281, 290-303, 392-397, 764-776, 1104-1120, 1873-1874, 2403-2411, 2982-2986, 4190-4197, 4313-4320, 4448-4455, 4567-4570
* **Verif.TypedDicts** — Unification of TypedDicts.
  * dynamic_typing.py: lines 69-214
* **Verif.Unbound** — Wrappers for methods of built-in classes.
  * core.py: lines 283-288, 357-412
* **Verif.Formatting** — Formatting of objects of a program's own classes.
  * copyext.py: lines 58-98
  * libimpl/builtinslib.py: lines 243-262, 4892-4902, 5294-5302, 5313-5316
* **Verif.TypedArrays** — The array module.
  * libimpl/arraylib.py: lines 14-27, 43-66, 80-91, 95-96, 109-113, 122-123, 131-132
  * simplestructs.py: lines 708-750, 802-803, 821-822
* **Verif.DefaultDicts** — Symbolic defaultdicts.
  * libimpl/collectionslib.py: lines 186-190, 195-196, 207-212
* **Verif.Gcds** — math.gcd for any arguments.
  * libimpl/mathlib.py: lines 56-59
* **Verif.Replays** — Replay of skipped functions that return lists.
  * core.py: lines 1057-1083, 1091-1101
* **Verif.Evals** — Scopes of eval.
  * libimpl/builtinslib.py: lines 4884-4889
* **Verif.DictGets** — get of ordinary dictionaries.
  * builtinslib.py: lines 5230-5242
  * simplestructs.py: lines 165-175
* **Verif.Plugins** — Extra plugins.
* **Verif.SourceContext** — Source code in verbose messages.
  * main.py: lines 570-582
* **Verif.Interrupts** — Interrupts of watch.
  * main.py: lines 529-568
  * watcher.py: lines 255

Not modelled at all: z3 and the translation of Python values to solver sorts; bytecode interception and patching machinery beyond what is listed; symbolic floats, complex numbers and decimals; proxies for arbitrary classes and callables; codecs; random number distributions; the language server; the hypothesis and pytest plugins; stub parsing; type hints of the standard library.

## Properties

Plan, status and theorems. Notes say what is missing.

* **C01 A confirmed verdict covers every input** — `SearchTree`: a program is a decision tree of questions about an abstract input type; the search tree (stem/leaf/worst-result/model-value/parallel/detached nodes), one exploration iteration and `bubble_status` are functions; induct over the iteration list with an invariant relating each tree node to the subprogram at that position.
  * Status: proved. For every schedule of iterations, draws, solver answers and timeouts. Hypotheses: `unsat` answers are right, and what follows detach_path is uniform (DetachUniform). cap_does_not_prevent_confirmed records that cap_result_at_unknown is forgotten by later iterations.
  * Theorems: `Search.confirmed_covers_every_input`, `Search.confirmed_excludes_failures`, `Search.runs_deterministic`, `Search.cap_does_not_prevent_confirmed`
* **C02 A refuted verdict comes from a real execution** — Same model; provenance invariant: every REFUTED result has a REFUTED leaf below it whose path condition lists the decisions taken.
  * Status: proved. Also: every reported message comes from the run of a concrete input.
  * Theorems: `Search.refuted_is_real`
* **C03 Exploration never repeats a finished path and makes progress** — Same model; lemma 'not exhausted ⇒ some child choosable', freshness of the reached stem, monotonicity of `exhausted` and of exhausted results.
  * Status: proved. Programs that call detach_path while handling UnknownSatisfiability (Action.abort) are excluded from iterations_never_repeat: those paths are not recorded.
  * Theorems: `Search.iterations_never_repeat`, `Search.search_never_stuck`, `Search.finished_parts_never_change`
* **C04 Exploration of a finite program terminates with full coverage** — Same model; measure = number of stems reachable in the remaining decision tree, strictly decreasing per iteration.
  * Status: proved. 
  * Theorems: `Search.exploration_terminates`, `Search.confirmed_only_when_exhausted`
* **C05 Combining branch results takes the worst outcome** — Direct algebra over the merge function.
  * Status: proved. 
  * Theorems: `Search.merge_takes_worst`, `Search.worst_comm`, `Search.worst_assoc`, `Search.merge_exhausted`, `Search.merge_messages`, `Search.merge_failing_precondition`, `Search.fork_status`
* **C06 Parallel search strategies only add information** — Decision table over `ParallelNode.compute_result` plus soundness as a case of C01.
  * Status: proved. parallel_ignored_hides_refuted records that a strategy whose paths were all ignored also decides.
  * Theorems: `Search.parallel_status_justified`, `Search.parallel_finished_decides`, `Search.parallel_second_decides`, `Search.parallel_ignored_hides_refuted`
* **C07 Nondeterministic programs are detected** — Questions carry identity; replay compares; theorem: divergent question ⇒ error value and tree unchanged.
  * Status: partial. Proved for questions and forks; the code does not detect a different realized expression or an early end (negations proved).
  * Theorems: `Search.different_question_detected`, `Search.fork_for_question_detected`, `Search.question_for_fork_detected`, `Search.realize_for_question_detected`, `Search.deterministic_never_flagged`, `Search.different_realization_undetected`, `Search.early_end_undetected`
* **C08 Call-tree analysis verdict** — Fold over per-path analyses as in `analyze_calltree`; characterise the final status by existential/universal statements over the list.
  * Status: proved. preUnsat_after_timeout records that PRE_UNSAT is also reported when every path timed out.
  * Theorems: `Search.calltree_verdict`, `Search.confirmed_only_when_exhausted`, `Search.preUnsat_no_confirmed_path`, `Search.preUnsat_after_timeout`
* **C09 Message severity is a total order and messages are deduplicated by worst state** — Order as `Nat` ranks; collector as an association list; invariant by induction over messages.
  * Status: proved. All message sequences.
  * Theorems: `Report.state_order`, `Report.keyLt_preferred`, `Report.collect_best`, `Report.collect_order_irrelevant`
* **C10 `crosshair check` exit status** — Function from load result and messages to exit code; iff statements.
  * Status: proved. All targets and messages; both output forms.
  * Theorems: `Report.check_exit`, `Report.check_prints`, `Report.verdicts_exit`, `Report.clamp_places`
* **C11 Watch mode reports each location once and notices every change** — Association-list model, idempotence and domain equality.
  * Status: proved. All histories of merges; restarting is C71.
  * Theorems: `Report.merge_exact`, `Report.watch_display`, `Report.watchLimit_exact`
* **C12 Watcher sees every file modification** — Loop over snapshot; iff statement against set difference; negation witness for duplicated paths.
  * Status: proved. No change is missed even if files are listed twice; but then every check reports a change (negation proved for overlapping paths).
  * Theorems: `Watch.check_records`, `Watch.check_notices`, `Watch.check_exact`, `Watch.listed_twice_always_changed`
* **C13 The worker pool never exceeds its size and never loses work** — State machine with events; invariant and multiset conservation.
  * Status: partial. All schedules of submissions, process starts, exits, gardening, termination and collection. Termination misses workers whose process does not exist yet, and on a machine with one processor the pool never runs anything (both proved).
  * Theorems: `Watch.pool_bounded`, `Watch.pool_conserves`, `Watch.pool_results`, `Watch.pool_idle`, `Watch.garden_busy`, `Watch.garden_kills`, `Watch.terminate_partial`, `Watch.terminate_leaves_starting`, `Watch.no_processes_never_finishes`
* **C14 Integer division and modulo of symbolic ints agree with Python** — SMT-LIB integer `div`/`mod` are Lean's Euclidean `/`,`%`; prove equality with `Int.fdiv`/`Int.fmod`.
  * Status: proved. 
  * Theorems: `Ints.floordiv_mod_agree`, `Ints.divmod_determined`
* **C15 Bit operations of symbolic ints agree with Python** — Arithmetic definitions vs `Int.testBit`-style two's complement spec.
  * Status: proved. `|`, `^` and `&` with other masks realize both operands and are CPython's own.
  * Theorems: `Ints.lshift_bits`, `Ints.rshift_bits`, `Ints.invert_bits`, `Ints.and_mask_bits`, `Ints.and_mask_answers`, `Ints.bit_length_spec`, `Ints.bit_count_spec`, `Ints.bits_determine`
* **C16 Rounding symbolic ints follows banker's rounding** — Arithmetic; nearest multiple/tie-to-even characterisation.
  * Status: proved. 
  * Theorems: `Ints.round_spec`, `Ints.rounded_determined`
* **C17 Integer/bytes conversions round-trip** — Digit-list recursion; round-trip and range theorem.
  * Status: proved. Two disagreements with CPython are proved as such: zero bytes with signed=True always overflow, and to_bytes accepts unknown byte orders.
  * Theorems: `Ints.to_bytes_overflow_iff`, `Ints.to_bytes_value`, `Ints.bytes_roundtrip`, `Ints.bytes_roundtrip_back`, `Ints.to_bytes_zero_length_signed`, `Ints.to_bytes_unknown_order`
* **C18 Decimal rendering and parsing of symbolic ints** — Digit recursion; value of numeral spec; negation witness for the dropped base in the fallback.
  * Status: proved. parse_drops_base: int(text, base) on a symbolic text with a bad digit falls back to base ten.
  * Theorems: `Ints.repr_spec`, `Ints.numeral_determined`, `Ints.symbolic_repr_agrees`, `Ints.repr_injective`, `Ints.parse_digits`, `Ints.parse_nondigits`, `Ints.parse_repr`, `Ints.parse_drops_base`
* **C19 Bounded-integer shortcuts are sound** — Interval state machine; invariant over comparison histories.
  * Status: proved. 
  * Theorems: `Ints.bounded_int_sound`, `Ints.decided_lt_remembered`, `Ints.bounded_neg`
* **C20 Lazy sequence views behave like the list they denote** — Python slicing spec (`PySlice`) as explicit index list; SequenceConcatenation/SliceView as an inductive with `denote`; prove `getitem` commutes.
  * Status: proved. Concrete lists, tuples, concatenations and views nested in any way. compose_slices and offset_slice are not used by these classes and not modelled.
  * Theorems: `Seq.lazy_len`, `Seq.lazy_get`, `Seq.lazy_iter`, `Seq.lazy_slice`, `Seq.lazy_slice_elements`, `Seq.lazy_concat`, `Seq.lazy_view`, `Seq.lazy_eq`, `Seq.lazy_contains`, `Seq.lazy_mul`
* **C21 Mutable list shell refines Python's list** — Refinement of op sequences to a Python list spec.
  * Status: proved. sort (CPython's own sorted) and in-place `*=` (which makes a new shell) are not in the histories. Sharing is modelled by several shells in one store.
  * Theorems: `Seq.shell_history`, `Seq.shell_history_lazy`
* **C22 Symbolic ranges behave like Python ranges** — Integer arithmetic and arithmetic-progression list spec.
  * Status: proved. Slices of ranges are realized first (CPython's own).
  * Theorems: `Range.range_created`, `Range.range_iter`, `Range.range_len`, `Range.range_bool`, `Range.range_get`, `Range.range_contains`, `Range.range_index`, `Range.range_eq`, `Range.range_reversed`
* **C23 Mutable dict shell refines a map** — Association lists; refinement to `Key → Option Val`; negation witnesses for ordering defects.
  * Status: partial. Histories of get, set, delete, len, bool, iteration, items, pop, popitem, setdefault, update, clear and == are proved in full. `copy` keeps the contents but forgets the length after mutations (negation proved), so len and pop on such copies are wrong.
  * Theorems: `Maps.shell_map_history`, `Maps.shell_map_keeps_inner`, `Maps.simple_dict_set`, `Maps.simple_dict_del`, `Maps.simple_dict_popitem`, `Maps.map_eq_iff`, `Maps.copy_keeps_items`, `Maps.copy_fresh_partial`, `Maps.copy_wrong_length`, `Maps.or_items`, `Maps.ror_swapped`, `Maps.overwrite_moves_key`, `Maps.reversed_repeats`, `Maps.reversed_partial`, `Maps.symbolic_dict_iter`
* **C24 Lazy set algebra refines mathematical sets** — Refinement to predicates/duplicate-free lists.
  * Status: partial. Histories over any number of sets with every operator, method and comparison are proved, except `a - b` with a mutable b, which keeps b by reference, and union/difference/intersection without arguments, which return the set itself: both negations are proved.
  * Theorems: `Sets.set_history_partial`, `Sets.tree_is_set`, `Sets.tree_elements`, `Sets.difference_aliases`, `Sets.difference_not_python`, `Sets.self_reference`, `Sets.union_aliases`
* **C25 Sequence ordering is lexicographic** — Order theory on lists.
  * Status: proved. 
  * Theorems: `Seq.seqLt_iff`, `Seq.seqLe_iff`, `Seq.seqGt_iff`, `Seq.seqGe_iff`, `Seq.seqLt_strict_total`, `Seq.strCmp_spec`
* **C26 Substring search agrees with str.find** — List-of-codepoints model; first/last occurrence spec.
  * Status: partial. find/rfind proved for all strings and for bounds not below minus the length; below, the code is wrong (negations proved). partition, rpartition and `in` are proved in full. index/rindex only raise when find is -1.
  * Theorems: `Strs.find_python_partial`, `Strs.rfind_python_partial`, `Strs.isFind_unique`, `Strs.contains_python`, `Strs.partition_python`, `Strs.rpartition_python`, `Strs.find_low_start`, `Strs.find_low_end`
* **C27 Replace and split agree with str** — Same; join/split laws.
  * Status: proved. Splitting with a separator; whitespace splitting is C61.
  * Theorems: `Strs.split_python`, `Strs.rsplit_python`, `Strs.split_join`, `Strs.rsplit_join`, `Strs.replace_python`, `Strs.replace_empty_python`, `Strs.replace_same`, `Strs.isSplit_unique`, `Strs.isRsplit_unique`
* **C28 Affix tests, stripping and padding agree with str** — Same; window spec from CPython's index adjustment.
  * Status: proved. 
  * Theorems: `Strs.startswith_python`, `Strs.endswith_python`, `Strs.affix_python`, `Strs.affix_any`, `Strs.remove_affix`, `Strs.strip_python`, `Strs.isLstrip_unique`, `Strs.just_python`, `Strs.center_python`, `Strs.zfill_python`
* **C29 Splitting lines loses nothing** — Recursion over list; concatenation law.
  * Status: proved. For any newline class.
  * Theorems: `Strs.splitlines_python`, `Strs.splitlines_join`, `Strs.splitlines_clean`, `Strs.isLines_unique`
* **C30 Hex encoding round-trips** — Digit tables; round-trip by induction.
  * Status: partial. Everything is proved except the placement of separators counted from the right with groups of three or more, where the code is wrong (negation proved).
  * Theorems: `Hex.hex_correct`, `Hex.fromhex_correct`, `Hex.hex_roundtrip`, `Hex.hexSep_roundtrip`, `Hex.hexSep_left`, `Hex.hexSep_zero`, `Hex.hexSep_right_partial`, `Hex.hexSep_misplaced`
* **C31 Base64 decode inverts encode** — Bit-chunk iterator as recursion; round-trip via digit lists.
  * Status: proved. Any alphabet of 64 different characters; which texts are refused is C69.
  * Theorems: `B64.chunks_keep_bits`, `B64.encode_rfc`, `B64.encode_wraps`, `B64.encode_length`, `B64.decode_exact`, `B64.decode_encode`, `B64.decode_skips`, `B64.encode_decode`
* **C32 struct pack/unpack round-trip** — Format items and byte lists; round-trip per code and for lists; negation witnesses for native byte order.
  * Status: partial. Round trip for all formats and byte orders, exact layout for explicit byte orders. Native order is packed big-endian, long buffers are accepted, and other boundary cases differ (each negation proved). Floats and strings go to the real module and are parameters.
  * Theorems: `Pack.parse_exact`, `Pack.pack_layout_partial`, `Pack.pack_size`, `Pack.pack_roundtrip`, `Pack.packInto_partial`, `Pack.iterUnpack_chunks`, `Pack.native_order_wrong`, `Pack.unpack_accepts_long_buffer`, `Pack.bool_and_char_arguments`, `Pack.empty_format_refused`, `Pack.packInto_grows`, `Pack.iterUnpack_endless`, `Pack.iterUnpack_leftover`
* **C33 Audit wall decisions** — Decision function over event name/args; trie vs exists-prefix spec.
  * Status: proved. All events, argument lists and rule lists; the rendering of arguments as text and the call stack test are parameters.
  * Theorems: `Wall.default_policy`, `Wall.tokens_of_event`, `Wall.allow_rules_apply`, `Wall.reject_rules_apply`, `Wall.unblock_allows`, `Wall.unblock_leaves_others`
* **C34 Audit wall enable/disable nesting** — Two-flag state machine with nested scopes.
  * Status: partial. Proved for an engaged wall. An enabled scope before the wall is engaged leaves it switched off afterwards (negation proved).
  * Theorems: `Wall.scopes_are_lexical`, `Wall.engaged_wall_scopes`, `Wall.enabled_before_engage`, `Wall.late_rules_ignored`
* **C35 Option overlay laws** — Record of options; monoid laws.
  * Status: proved. All option sets and values.
  * Theorems: `Opts.overlay_last`, `Opts.overlay_assoc`, `Opts.overlay_empty`, `Opts.full_overlay_last`, `Opts.full_overlay_overlay`, `Opts.fromDict_exact`, `Opts.effective_precedence`
* **C36 Budget splitting conserves limits** — Rational arithmetic over options.
  * Status: partial. Iterations always add up. Bounds need a representable iteration count: with the default count and priority one the second stage gets -1, and an absent timeout becomes NaN at priority zero (negations proved). Floating point rounding is a parameter (monotone, keeps zero and one).
  * Theorems: `Opts.split_iterations_sum`, `Opts.split_iterations_bounds_partial`, `Opts.split_timeouts_bounds`, `Opts.split_timeouts_sum`, `Opts.split_no_timeout`, `Opts.maxUninteresting_exact`, `Opts.perPath_exact`, `Opts.split_negative_iterations`, `Opts.split_zero_priority`
* **C37 Directive comments configure the enclosing scope** — Line/token model of directive parser.
  * Status: proved. All directive texts; the whitespace test and the parsing of numbers are parameters. Finding comments in source text is Python's tokenizer and not modelled.
  * Theorems: `Opts.parse_exact`, `Opts.parseBool_exact`, `Opts.parseKinds_exact`, `Opts.collect_innermost`, `Opts.effective_precedence`
* **C38 Contract inheritance obeys behavioural subtyping** — Condition records; induct over the override chain.
  * Status: proved. All hierarchies, along the line of classes that the conditions are drawn from. With several bases only the leftmost base with conditions counts, and in a diamond the wrong function is taken (both proved).
  * Theorems: `Contract.declared_conditions`, `Contract.line_exists`, `Contract.postconditions_accumulate`, `Contract.preconditions_nearest`, `Contract.preconditions_none`, `Contract.raises_accumulate`, `Contract.function_nearest`, `Contract.mutable_nearest`, `Contract.subclass_keeps`, `Contract.second_base_dropped`, `Contract.diamond_takes_wrong_function`
* **C39 Docstring condition sections parse losslessly** — Line-based section parser on character lists.
  * Status: proved. All docstrings: the reading is exactly that of a separate grammar. Docstrings in single quotes or with a prefix other than r are ignored, and triple quotes of the other kind at the end of a line cut the docstring short (both proved). Compiling the expressions and Python's own parser are not modelled.
  * Theorems: `Doc.parse_exact`, `Doc.found_in_line`, `Doc.written_sections_are_read`, `Doc.docstring_lines`, `Doc.lines_before_skipped`, `Doc.other_docstrings_ignored`, `Doc.other_quotes_cut_docstring`
* **C40 Contract enforcement blames the right side** — Call semantics with oracle function; iff statements.
  * Status: proved. All programs, with conditions that themselves call functions; the exact outcomes of every guarded call. A name in post[...] that is no parameter makes every call a postcondition failure (proved).
  * Theorems: `Enforce.enforcing_restored`, `Enforce.runs_unique`, `Enforce.unguarded_call`, `Enforce.guarded_call`, `Enforce.blame`, `Enforce.enforcement_transparent`, `Enforce.unknown_mutable_argument_blames_postcondition`
* **C41 Exceptions during analysis are classified** — Finite decision table over abstract exception classes.
  * Status: proved. All paths, by the outcomes of the code they run. Allowed exceptions also excuse conditions that raise them, and hide nondeterminism; an exception while comparing arguments ends the analysis (proved).
  * Theorems: `Attempt.body_exception`, `Attempt.confirmed_iff`, `Attempt.refuted_means`, `Attempt.failures_reported`, `Attempt.unmet_precondition`, `Attempt.expected_never_failure`, `Attempt.suspected_typeError`, `Attempt.raising_postcondition_confirms`, `Attempt.raising_precondition_confirms`, `Attempt.allowed_exception_hides_nondeterminism`, `Attempt.comparison_exception_escapes`
* **C42 Deque model refines a double-ended queue** — Heap of list objects with several deques; refinement to independent bounded queues over all histories; negation witnesses for maxlen.
  * Status: partial. Full for deques without a bound, the only ones that are created symbolically: all histories over any number of deques and copies, with lists as shared mutable objects. With a bound, extend, extendleft, insert and * ignore it, and append fails at bound zero (negations proved).
  * Theorems: `Deque.unbounded_history`, `Deque.bounded_history_partial`, `Deque.rotate_steps`, `Deque.maxlen_exceeded`, `Deque.append_to_zero`
* **C43 StringIO model refines a seekable text buffer** — Buffer+position refinement; negation witnesses for read(-1), readline(limit).
  * Status: partial. All histories in all newline modes that avoid negative amounts, limits of readline, readline beyond the end, and getvalue after close; in each of these the stream differs from Python's (negations proved).
  * Theorems: `TextIO.stream_history_partial`, `TextIO.plain_use`, `TextIO.lines_cover`, `TextIO.read_negative`, `TextIO.readline_limit_absolute`, `TextIO.readline_negative`, `TextIO.readline_beyond_end`, `TextIO.truncate_negative`, `TextIO.getvalue_after_close`
* **C44 Time never runs backwards** — State machine of last readings.
  * Status: proved. All paths; also every real execution is explored. sleep accepts negative amounts, which Python rejects, and then time may run backwards (proved). Seconds are exact rationals.
  * Theorems: `Clock.never_backwards`, `Clock.first_reading`, `Clock.real_explored`, `Clock.negative_sleep_turns_back`
* **C45 Symbolic random generators replay deterministically** — Replay list model.
  * Status: partial. Copies replay under every interleaving. Values are in range as long as sharing generators ask for the same at the same position; otherwise they need not be, and seeding has no effect (negations proved).
  * Theorems: `Rand.copy_replays`, `Rand.copy_same`, `Rand.in_range_partial`, `Rand.single_in_range`, `Rand.replay_out_of_range`, `Rand.replay_mixed`, `Rand.replay_random_one`, `Rand.reseeding_does_not_replay`
* **C46 Greatest common divisor of symbolic ints** — Euclid recursion with termination proof; `Int.gcd`.
  * Status: proved. 
  * Theorems: `Ints.gcd_spec`, `Ints.gcd_greatest`
* **C47 Date arithmetic is exact** — Integer arithmetic over ordinals; bijection theorem.
  * Status: proved. For all integers; also the solver constraints that tie a symbolic ordinal to its year, month and day have exactly one solution.
  * Theorems: `Dates.toordinal_numbers_days`, `Dates.ordinal_roundtrip`, `Dates.ordinal_order`, `Dates.date_constructors`, `Dates.day_constraint_exact`, `Dates.decomposition_unique`, `Dates.timedelta_normalises`, `Dates.timedelta_canonical`
* **C48 Diff-behavior reports equal exactly on equal behaviour** — Values are finite trees of plain data with identifiers for NaN and identity-compared objects; flexible_equal is a recursive function by kind of the first value; structural equality is an independent inductive relation (dicts and sets by membership). Equivalence by induction on the size; reflexivity and symmetry follow. Iterations of diffbehavior are decision logic on top.
  * Status: partial. All plain values, nested without bound. Two iterators of one type are always equal, NaN in sets and as dict key is not equal to itself, unrealizable values make the comparison asymmetric, and ignored attempts are compared (negations proved).
  * Theorems: `Outcome.flexEq_iff_partial`, `Outcome.flexEq_self`, `Outcome.flexEq_symm_partial`, `Outcome.iterators_compare_partial`, `Outcome.iteration_verdict_partial`, `Outcome.result_eq_partial`, `Outcome.differingArgs_iff`, `Outcome.iterators_same_type`, `Outcome.objects_same_type`, `Outcome.set_nan`, `Outcome.dict_nan`, `Outcome.unrealizable_asymmetric`, `Outcome.ignored_compared`
* **C49 Diff and cover reports select a covering subset** — Greedy loop over finite sets; coverage theorem.
  * Status: proved. All sets of examples. Differences that execute no instruction are dropped, and ties between differences prefer the longer example, contrary to the documentation (both proved).
  * Theorems: `Pick.cover_covers`, `Pick.cover_greedy`, `Pick.cover_all_paths`, `Pick.diff_covers`, `Pick.diff_reported`, `Pick.diff_without_coverage_ignored`, `Pick.ties_prefer_longer`
* **C50 `crosshair diffbehavior` and `search` exit status** — Exit-code functions.
  * Status: proved. All outcomes.
  * Theorems: `Report.diff_exit`, `Report.search_exit`
* **C51 Scoped state is restored** — All global state is one record; entering and leaving each context manager are functions on it; programs are built from scopes, sequences, exceptions, handlers and observations. The specification threads a context that a scope extends and never changes afterwards. Induction over programs with an invariant relating the patch tables to layers of patches and the opcode tables of the tracer to the list of modules.
  * Status: partial. All programs of nested scopes, sequences, exceptions and handlers. Excluded are GeneratorExit, pushing a module that is in force, enforcing a function within itself, starting the tracer twice, patches that share a code object, and prefer_pure_python_imports left by an exception: each of these does not restore (negations proved).
  * Theorems: `Scope.scopes_restore_partial`, `Scope.seen_again_partial`, `Scope.pop_out_of_order`, `Scope.pypath_restores`, `Scope.pureImports_restores_partial`, `Scope.pureImports_exception`, `Scope.noTracing_generatorExit`, `Scope.pushed_twice`, `Scope.tracer_twice`, `Scope.enforcing_twice`, `Scope.patch_same_code`, `Scope.patched_without_opcodes`
* **C52 Qualified names resolve to the longest importable module** — Modules and objects as partial functions; the loop over prefixes and the walk over attributes against a relation that says what a name stands for. Equivalence by induction over the prefixes and parts.
  * Status: partial. All names and all worlds of modules and objects. What a name resolves to is settled completely. Missing: failures are not all reported: a name that is not found in its module ends in an exception nobody catches, a missing module is no NotFound, inherited methods are not found (negations proved).
  * Theorems: `Names.resolves_iff`, `Names.unambiguous`, `Names.unresolved`, `Names.reported_partial`, `Names.missing_module_importError`, `Names.inherited_refused`, `Names.inside_other`, `Names.notFound_traceback`
* **C53 Type unification is sound** — Types as trees over a hierarchy of classes; the unifier is a set of mutual functions with a step bound. The specification gives types a meaning as sets of values (objects with the items they hold, tuples, functions with calls), in which Any is read favourably to the caller. Soundness by induction over the steps, for any bindings; the end by a weight in which variables outweigh what can be bound to them.
  * Status: partial. All types of classes with arguments, Any, variables, unions, tuples and callables, nested without bound. Sound for value types without variables if there are no unions given to variables and no tuple types of any length expected; outside of this lists are accepted for tuples, bindings in unions are forgotten, tuples of any length are accepted for pairs, and there are exceptions and an endless recursion (negations proved).
  * Theorems: `Unify.sound_partial`, `Unify.bindings_closed`, `Unify.ends`, `Unify.callable_return`, `Unify.accepts_itself_partial`, `Unify.list_for_tuple`, `Unify.string_for_tuple`, `Unify.union_forgotten`, `Unify.long_for_pair`, `Unify.pair_for_long_crash`, `Unify.empty_crash`, `Unify.object_refused`, `Unify.endless`
* **C54 Deep copies preserve structure and isolate mutation** — A heap of objects, with addresses as identities; copying with memo and keep-alive list is a set of mutual recursive functions with a step bound. Invariant by induction over the steps: the memo is an injective partial map from originals to copies under which finished copies correspond to their originals. Shape and aliasing follow for all paths; isolation because no mutable object can be reached from both roots, which every change preserves; termination by the number of objects without copy and a rank.
  * Status: partial. All finite object graphs with any sharing and cycles, made of atoms, symbolic values, uncopyable objects, tuples, lists, dicts, instances and sets, any interleaved sequence of changes of original and copy. Missing: bound methods (best-effort copies can end in an internal error) and sets that can be reached from their items (aliasing is lost); negations proved.
  * Theorems: `Copy.ends_partial`, `Copy.shape_partial`, `Copy.aliasing_partial`, `Copy.original_partial`, `Copy.original_isolated_partial`, `Copy.copy_isolated_partial`, `Copy.typeError_iff_partial`, `Copy.method_internal`, `Copy.set_cycle`
* **C55 Regular expression matching on symbolic strings** — The matcher with a bound on nested calls; the ordered list of matches and the language as specifications, shown to agree. Exactness by induction over nesting depth, position and size (there is a bound that suffices, and any larger one gives the same); soundness by induction over the bound.
  * Status: partial. All strings and positions; characters, repetitions, branches, anchors, look-arounds and groups, nested without bound. Exact, with groups and order of preference, if what is repeated matches in one way at most and not the empty string; every match is right in general. Missing: repetitions whose body can match in several ways or the empty string, $ in front of a last line feed, word boundaries at the ends of the string, negative look-behind, groups in look-arounds (negations proved).
  * Theorems: `Regex.match_partial`, `Regex.accepts_partial`, `Regex.sound_partial`, `Regex.fullmatch_partial`, `Regex.greedy_longest_partial`, `Regex.lazy_shortest_partial`, `Regex.plain_fits`, `Regex.runs_language`, `Regex.match_stable`, `Regex.repetition_final`, `Regex.empty_repetition_endless`, `Regex.dollar_newline`, `Regex.boundary_at_start`, `Regex.caret_empty`, `Regex.behind_at_start`, `Regex.ahead_groups_lost`
* **C56 JSON decoding of symbolic strings** — Encoder and decoder as functions on lists of code points. The JSON language is specified by inductive relations between texts and values; the encoder writes texts of the value (induction over values), the decoder reads every text as its value.
  * Status: partial. All JSON values, nested without bound, all options for indentation, separators, key order and ASCII. Missing: with ensure_ascii, strings with the two halves of a surrogate pair side by side, which come back as one character (negation proved). Circular values, keys that are not strings and hooks are not modelled; of floats the texts and their reading are assumed to fit.
  * Theorems: `Json.roundtrip_partial`, `Json.roundtrip_plain`, `Json.writes_json`, `Json.keys_sorted`, `Json.only_ascii`, `Json.halves_joined`
* **C57 Quantified aggregation of symbolic booleans** — Items are bools, symbolic bools (functions of the assignment) or objects whose truth may raise; the iterator may raise. The loops are modelled with the accumulated conditions; induction over the items with the invariant that the accumulated conjunction (disjunction) decides the result.
  * Status: partial. All iterators and items, under every assignment. Values returned are always right, and Python's exceptions are always raised; but items after a symbolic one that settles the result are still drawn, and symbolic values still asked (negations proved).
  * Theorems: `Builtin.all_python_partial`, `Builtin.any_python_partial`, `Builtin.all_same_path`, `Builtin.any_same_path`, `Builtin.all_value`, `Builtin.any_value`, `Builtin.all_raises`, `Builtin.any_raises`, `Builtin.all_asks`, `Builtin.any_asks`, `Builtin.all_overdraws`, `Builtin.any_overdraws`, `Builtin.all_asks_symbolic`
* **C58 Lazily materialised characters denote one fixed string** — State machine of created/queued variables; invariant; negation witness.
  * Status: partial. Proved for all histories: in-range positions, iteration, comparison and realization always use the same variables. Negative and out-of-range positions are right only if the string was never compared with a longer one; the negation is proved for a concrete history.
  * Theorems: `Chars.char_fixed`, `Chars.iterate_fixed`, `Chars.compare_fixed`, `Chars.realize_fixed`, `Chars.index_python_partial`, `Chars.longer_comparison_breaks_index`
* **C59 Slices of a symbolic string are slices of its characters** — Slices of strings as cuts of code point lists; CPython's index adjustment as the specification.
  * Status: partial. Slicing is Python's except after a comparison with a longer string (internal error) and for negative steps with bounds counted from the front (wrong characters): both negations are proved.
  * Theorems: `Chars.slice_python_partial`, `Chars.longer_comparison_breaks_slice`, `Chars.backward_slice_wrong`
* **C60 Counting substrings** — Recursion of the counting loop; number of disjoint occurrences taken from the left as the specification.
  * Status: partial. Missing: the empty string in a window whose start is past its end, where the code answers 1 instead of 0 (proved).
  * Theorems: `Strs.count_python`, `Strs.count_empty_partial`, `Strs.count_empty_past_end`
* **C61 Splitting at whitespace** — Words of a text as maximal runs without whitespace; negation witnesses for the strings on which the code strips too much.
  * Status: partial. Proved without a limit, with limit 0, and with any limit if the far end has no whitespace; otherwise the code drops the far whitespace (negations proved).
  * Theorems: `Strs.splitWs_python_partial`, `Strs.rsplitWs_python_partial`, `Strs.splitWs_strips`, `Strs.rsplitWs_strips`
* **C62 Expanding tabs** — Column arithmetic; a separate column-by-column specification; negation witness for the fixed width.
  * Status: partial. The code ignores columns (negation proved); only strings without tabs are right.
  * Theorems: `Strs.expandtabs_no_tab_partial`, `Strs.expandtabs_fixed`
* **C63 Character class tests** — Masks over code points; quantification over all characters of the string.
  * Status: proved. The Unicode classes themselves are parameters.
  * Theorems: `Strs.charsIn_python`, `Strs.islower_python`, `Strs.isupper_python`, `Strs.istitle_python`
* **C64 ISO weeks** — Arithmetic of weeks over ordinals; uniqueness of the ISO decomposition.
  * Status: proved. 
  * Theorems: `Dates.weekdays`, `Dates.isocalendar_correct`, `Dates.fromisocalendar_correct`, `Dates.isocalendar_roundtrip`
* **C65 Date and duration arithmetic** — Integer arithmetic of microseconds; ring laws; round half to even characterised.
  * Status: proved. Integer operands; multiplication and division of durations by floats are not modelled.
  * Theorems: `Dates.timedelta_ring`, `Dates.timedelta_division`, `Dates.rounding_unique`, `Dates.timedelta_compare`, `Dates.date_arithmetic`
* **C66 Datetime arithmetic and comparison** — Fixed offsets; the difference of instants as the specification; negation witness for dropped seconds.
  * Status: partial. Fixed offsets. Comparison of times drops the seconds of offsets (negation proved).
  * Theorems: `Dates.datetime_add`, `Dates.datetime_sub`, `Dates.datetime_compare`, `Dates.time_compare_partial`, `Dates.time_compare_drops_seconds`
* **C67 Rules move decisions one way only** — Comparison of decisions under rule lists that extend each other; negation witnesses.
  * Status: partial. True except for entries with arguments on events without a special handler, where both directions fail (negations proved).
  * Theorems: `Wall.unblock_monotone_partial`, `Wall.unblock_can_block`, `Wall.reject_rule_can_allow`
* **C68 The advice in side effect errors works** — The entry from the error message is fed back to the decision function; negation witness.
  * Status: partial. True when no argument text contains a colon; with one the advice fails (negation proved).
  * Theorems: `Wall.advice_works_partial`, `Wall.advice_is_full`, `Wall.advice_fails`
* **C69 Base64 decoding refuses what the real module refuses** — Grammar of accepted texts; exact decision theorem and witnesses against the real module's documented behaviour.
  * Status: partial. decode_exact says exactly which texts are accepted. It differs from the real module for padding after complete groups in strict mode, and for data after padding otherwise (both proved).
  * Theorems: `B64.decode_exact`, `B64.strict_accepts_excess_padding`, `B64.data_after_padding_refused`
* **C70 `crosshair search` finds the smallest example** — Binary search over the possible scores with an exact interval oracle; least element of the set of scores.
  * Status: proved. All sets of possible scores, also infinite ones, given a solver that is right about intervals. Negative scores are ignored, as the code says.
  * Theorems: `Pick.score_least`, `Pick.search_least`
* **C71 A change of files restarts the watch display** — Loop with the history of messages since the last change; refinement to the set of newest messages.
  * Status: partial. Proved for ordinary terminals. On terminals that cannot rewrite lines a change does not restart the display (negation proved).
  * Theorems: `Watch.watch_since_change`, `Watch.screens_show_news`, `Watch.no_restart_without_rewriting`
* **C72 Certain branches are certain and others stay open** — Probabilities in hundredths; decision table over the oracle's histories.
  * Status: proved. The coverage oracle, the only one in use; probabilities in hundredths.
  * Theorems: `Pick.certain_choices`, `Pick.open_choices`
* **C73 Class invariants guard every public method** — Condition lists over class trees; where invariants go by name; negation witnesses for inherited invariants and mixed syntaxes.
  * Status: partial. Own invariants always guard. Inherited ones are dropped on entry by a declared precondition, for methods new in the subclass, and when they are written in another contract syntax than the first that finds anything (negations proved).
  * Theorems: `Contract.invariant_places`, `Contract.own_invariants_guard`, `Contract.constructor_establishes`, `Contract.inherited_invariants_on_exit`, `Contract.inherited_invariants_on_entry_partial`, `Contract.own_precondition_drops_inherited_invariants`, `Contract.new_method_skips_inherited_invariants`, `Contract.second_syntax_invariants_ignored`
* **C74 Every call from user code is checked** — Decision table of the tracer's answer for caller and target; construction compared with Python's.
  * Status: proved. Exact decision. Not true without exception: files called copy.py, enum.py and so on, lambdas, and metaclasses with their own __call__ (witnesses proved).
  * Theorems: `Enforce.guarded_iff`, `Enforce.conditions_found`, `Enforce.user_code_wanted`, `Enforce.cache_sound`, `Enforce.construct_agrees`, `Enforce.user_file_named_copy`, `Enforce.lambda_not_guarded`, `Enforce.metaclass_call_bypassed`
* **C75 The stand-in for randrange allows exactly the members of the range** — Contract as Boolean functions, compared with membership in a range.
  * Status: partial. Exact for positive steps. With negative steps no value is allowed (negation proved).
  * Theorems: `Rand.randrange_forward`, `Rand.randrange_one_argument`, `Rand.randrange_possible`, `Rand.randrange_negative_step`
* **C76 Making a dict from pairs keeps the last value of each key** — The scan for conflicting keys and the reverse insertion are modelled over keys with identity, equality and hashability; compared with Python's insertion one by one, by induction over the pairs.
  * Status: partial. Values are right for all pairs, the order only without repeated keys; unhashable keys raise the wrong exception and a repeated NaN is kept twice (negations proved). Iterables of pairs, without keyword arguments.
  * Theorems: `Builtin.dict_lookup`, `Builtin.dict_order_partial`, `Builtin.dict_fails`, `Builtin.dict_order`, `Builtin.dict_unhashable`, `Builtin.dict_nan`
* **C77 index finds the first occurrence within the bounds** — Both index functions, compared with a declarative specification of the first position within the bounds.
  * Status: partial. Full for symbolic sequences. For plain lists right without bounds; with bounds the position counts from the start bound (negation proved).
  * Theorems: `Builtin.symIndex_python`, `Builtin.listIndex_python_partial`, `Builtin.listIndex_shifted`, `Builtin.listIndex_start`
* **C78 join, in and repr of containers behave as in Python** — The join loop against List.intercalate; the disjunction over offsets against the substring relation; the repr functions against Python's formats.
  * Status: partial. Full for in and for repr of lists, sets and frozensets. join reports the wrong exception when the iterable raises after an item of the wrong type, and repr of tuples with one item lacks the comma (negations proved).
  * Theorems: `Builtin.join_value`, `Builtin.join_python_partial`, `Builtin.join_error_order`, `Builtin.contains_python`, `Builtin.repr_python`, `Builtin.tupleRepr_python_partial`, `Builtin.tupleRepr_one`
* **C79 Realized data has no symbolic values** — The model of C54 in mode realize: what is seen at the end of any path of the copy is not symbolic.
  * Status: partial. All object graphs as for C54. A bound method leaves symbolic values in the copy (negation proved).
  * Theorems: `Copy.realize_concrete_partial`, `Copy.shape_partial`, `Copy.realize_method`
* **C80 JSON decoding accepts exactly JSON** — The decoder, with a step bound, against the inductive relation of the JSON language: complete by induction over derivations, sound by induction over the steps; the bound is linear in the length of the text and is proved sufficient.
  * Status: partial. All texts. Every document is read as its value, and decoding ends; nothing else is read unless there is a sign, an underscore or white space among the four characters behind a backslash and u (negations proved).
  * Theorems: `Json.reads_json`, `Json.only_json_partial`, `Json.loads_ends`, `Json.value_unique`, `Json.sign_accepted`, `Json.space_accepted`, `Json.underscore_accepted`
* **C81 JSON encodings are detected** — The bytes of a text in each transformation format are specified separately; documents begin with an ASCII character and have no NUL characters, from which the first four bytes follow.
  * Status: proved. All documents, UTF-8, UTF-16 and UTF-32 in both byte orders, with and without byte order mark.
  * Theorems: `Json.detects`
* **C82 A line number names the function it belongs to** — Members of modules and classes as trees; the search against the relation of functions seen in the tree, by recursion over trees.
  * Status: partial. All modules with nested classes. Missing: the line directly behind a function counts as part of it, and methods that are inherited by a class earlier in the alphabet end in a KeyError (negations proved).
  * Theorems: `Names.line_sound_partial`, `Names.line_found_partial`, `Names.line_none`, `Names.line_behind`, `Names.inherited_keyError`
* **C83 Directories are searched completely** — Directory trees; what is visited against a relation of files below a directory, by mutual recursion; the package path as a list.
  * Status: partial. All directory trees. The module name of a file is found unless the root directory has an __init__.py, in which case the search does not end (negation proved).
  * Theorems: `Names.visited_iff`, `Names.missing_iff`, `Names.module_of_file`, `Names.module_ends_partial`, `Names.root_package`
* **C84 Character masks are sets of characters** — Masks as lists of parts; the operations are loops that add bounds to a mask, so one lemma about bounds added in order (invariant and characters covered) gives all of them; canonical form by induction over both lists.
  * Status: proved. All masks whose parts are in order and do not overlap.
  * Theorems: `Mask.union_holds`, `Mask.intersect_holds`, `Mask.invert_holds`, `Mask.subtract_holds`, `Mask.add_holds`, `Mask.constraint_holds`, `Mask.canonical`
* **C85 Character expressions match the right characters** — Character expressions as `sre_parse` gives them; the meaning of each one is specified separately; categories and case are parameters.
  * Status: partial. All expressions, flags and characters without IGNORECASE. With IGNORECASE: literals that are no special characters, and ranges of ASCII letters without ASCII; otherwise there are wrong matches and exceptions (negations proved).
  * Theorems: `Mask.term_partial`, `Mask.set_partial`, `Mask.literal_ignorecase_partial`, `Mask.range_ignorecase_partial`, `Mask.dot_matches_all`, `Mask.escaped_fails`, `Mask.letter_without_case`, `Mask.ascii_literal`, `Mask.ascii_range`, `Mask.mixed_range`
* **C86 search finds the leftmost match** — The loop over positions against the leftmost position, with the exactness of the matcher at all positions.
  * Status: partial. All strings, patterns as for C55. Missing: a match at the very end is never found, and negative positions count from the end (negations proved).
  * Theorems: `Regex.search_partial`, `Regex.leftmost_one`, `Regex.positions_partial`, `Regex.search_end`, `Regex.negative_position`
* **C87 All matches are found** — The loop with its flag for empty matches against an inductive definition of Python's scanner; a measure of position and flag gives termination.
  * Status: partial. All strings, patterns as for C55, positions that are not negative.
  * Theorems: `Regex.finditer_partial`, `Regex.scan_one`, `Regex.matches_ordered`
* **C88 Splitting by a pattern** — The loop against the parts between the matches of the scanner, by induction over the rounds.
  * Status: partial. All strings and limits, patterns as for C55. Missing: patterns that match at the very end (negation proved). If a match is empty, Python's own split is used.
  * Theorems: `Regex.split_partial`, `Regex.split_end`
* **C89 Replacing by a pattern** — The recursion on the rest of the string; that matches in the rest are those in the string is shown for expressions that do not look back, by induction over the expression.
  * Status: partial. All strings, patterns that can be told to be good by their looks, consume something and do not look back; counts that are not negative. Otherwise there are wrong results (negations proved). Replacements that depend on the matched text only.
  * Theorems: `Regex.subn_partial`, `Regex.sub_empty`, `Regex.sub_anchor`, `Regex.sub_negative`
* **C90 What the solver is told about classes is what Python says** — The constraints as a list of facts; an invariant over the classes asked for says that they are all that there is to say. Interpretations are arbitrary structures; for the extension a new element is added to one.
  * Status: proved. All hierarchies, orders and models of the constraints.
  * Theorems: `Types.told_exact`, `Types.told_true`, `Types.told_conservative`
* **C91 A symbolic class keeps its answers** — A path follows an interpretation of the constraints. An invariant over the questions; each answer is compared with the class that the variable is in the end.
  * Status: partial. All hierarchies, histories of questions and paths; classes in questions are not symbolic. That all classes can be the one is proved if issubclass says what the known subclasses say, and if the annotation is not object; with registered subclasses of abstract base classes, asking loses some (negation proved).
  * Theorems: `Types.answers_true`, `Types.realized_once`, `Types.found_partial`, `Types.lowering_loses`
* **C92 Any known subclass can be chosen** — Breadth-first search with a bound on its rounds from the number of visits (the size of the unfolded hierarchy); induction over the list of classes for the decisions and the probabilities.
  * Status: partial. All hierarchies without cycles and all decisions. Known are classes whose bases up to the annotated class are known and may be used; others are never chosen (negation proved).
  * Theorems: `Types.any_subclass`, `Types.lists_subclasses`, `Types.uniform`, `Types.biased`, `Types.subclass_map`, `Types.hidden_by_base`
* **C93 Intersected signatures cover both** — Signatures as lists of parameters of five kinds; what calls a signature accepts is specified as in Python's reference. The dictionary that the code builds is shown to be a list without repetitions if names do not clash.
  * Status: partial. All signatures and calls. Calls that both signatures accept are accepted, if the same name means the same kind of parameter in both. Missing: calls that only one of them accepts, two signatures with *args, defaults in front, and names that clash (negations proved).
  * Theorems: `Sigs.covers_partial`, `Sigs.annotation_fits`, `Sigs.covers_not_each`, `Sigs.two_args_fail`, `Sigs.default_order_fails`, `Sigs.name_clash`
* **C94 Objects are made with arguments that constructors accept** — As C93; the constructor's signature is compared with the methods' signatures call by call.
  * Status: partial. Exact for classes with one of the two methods. With both: if one of them takes everything, and the other one takes parameters that may be given by keyword; otherwise parameters are lost, the object stays a parameter, or there is a ValueError (negations proved).
  * Theorems: `Sigs.strip_exact`, `Sigs.constructor_one`, `Sigs.constructor_both_partial`, `Sigs.constructor_drops`, `Sigs.constructor_fails`, `Sigs.constructor_self`
* **C95 Counterexamples with skipped calls are real** — Model code as a tree of calls and changes of state, executions with some calls skipped that remember what is assumed, and the check of assumptions. By induction on the tree: if all assumptions are so, the outcome is that of calling everything.
  * Status: partial. All code, functions and choices. Missing: results that are == but differ, and functions that raise when the assumption is checked (negations proved).
  * Theorems: `Skip.refuted_real`, `Skip.refuted_found`, `Skip.equal_not_same`, `Skip.raising_crashes`
* **C96 Skipping calls confirms nothing false** — With the model of C95: among the allowed results are the real ones, so the real outcome is among those that were checked.
  * Status: partial. All code, for functions that return without exceptions what their contracts allow; exceptions are never assumed (negation proved).
  * Theorems: `Skip.confirmed_holds`, `Skip.exceptions_missed`
* **C97 When calls are skipped** — Model the interceptor as a decision on flags; each decision is characterised by a condition in the terms of the property, by cases.
  * Status: proved. Exact conditions for each decision.
  * Theorems: `Skip.checked_iff`, `Skip.trusted_iff`, `Skip.unsupported_iff`, `Skip.mutating_called`
* **C98 The signature of an overloaded function** — Model find_best_sig on lists of annotations and compare with the first signature that fits, by induction on the list.
  * Status: partial. For positional arguments, if all signatures take as many as are given; otherwise the wrong signature or a TypeError (negations proved).
  * Theorems: `Skip.best_first_partial`, `Skip.keyword_wrong`, `Skip.other_arity_raises`
* **C99 Return values shown with a counterexample reproduce it** — With the model of C95: executions that make up values and record them per function, and replays that use them up. Induction on the tree, with an invariant between recorded values and those that are left.
  * Status: partial. All code, functions and results; not if preconditions call the functions too, whose results then come first (negation proved).
  * Theorems: `Skip.reproduces_partial`, `Skip.only_trusted`, `Skip.values_shift`
* **C100 Encoding as UTF-8** — Model the code with its bit operations; Table 3-7 of the Unicode standard is the specification. Each range of code points is settled by arithmetic, strings by induction.
  * Status: partial. All strings of Unicode scalar values; round trips for all strings and all byte strings. Surrogates are encoded where Python raises (negation proved).
  * Theorems: `Codec.encode_exact_partial`, `Codec.sequence_unique`, `Codec.round_trip`, `Codec.round_trip_back`, `Codec.surrogates_encoded`
* **C101 Decoding UTF-8** — As C100; a chunk is a row of the table (or a surrogate), then induction over the bytes that are left.
  * Status: partial. All well-formed byte strings are decoded; others are refused if they contain no encoded surrogate. Encoded surrogates are decoded, and errors end one byte after their start (negations proved).
  * Theorems: `Codec.well_formed_decoded`, `Codec.strict_exact_partial`, `Codec.strict_error_partial`, `Codec.surrogates_decoded`, `Codec.error_end`
* **C102 Handlers of decoding errors** — Specification: well-formed sequences, and maximal subparts as errors. All but the first byte of a maximal subpart are continuation bytes, each of which is an error of its own in the code; so bytewise replacement gives the same.
  * Status: partial. All byte strings without encoded surrogates and all handlers that replace each byte; for 'replace' if malformed parts are single bytes (negations proved otherwise).
  * Theorems: `Codec.bytewise_exact_partial`, `Codec.replace_partial`, `Codec.lenient_total`, `Codec.replace_doubles`, `Codec.surrogates_not_ignored`
* **C103 ASCII and Latin-1** — The loop over characters is a takeWhile; induction over the parts between errors.
  * Status: partial. All strings, byte strings, and handlers that replace each character. The end of an encoding error is that of its first character (negation proved).
  * Theorems: `Codec.ascii_encode_strict`, `Codec.latin1_encode_strict`, `Codec.ascii_encode_charwise`, `Codec.latin1_encode_charwise`, `Codec.ascii_decode_bytewise`, `Codec.latin1_decode`, `Codec.ascii_decode_strict`, `Codec.encode_error_end`
* **C104 Incremental decoding** — Invariant: what came out and the buffer make all that was given; well-formed sequences are a prefix code.
  * Status: partial. Nothing is lost between output and buffer, for all cuts; Latin-1 is exact. The UTF-8 decoder gives one character at a time, raises IndexError for nothing, and no errors where it should (negations proved).
  * Theorems: `Codec.incremental_keeps_partial`, `Codec.latin1_incremental`, `Codec.one_at_a_time`, `Codec.nothing_crashes`, `Codec.errors_swallowed`
* **C105 Symbolic dictionaries are dictionaries** — One interpretation of the solver's variables is fixed; each step of a generator is a relation between states. Invariant: each iterator's array is the whole one without the keys it has yielded, which are the first of the cache. The deferred iteration gives the final order, of which all caches are prefixes.
  * Status: proved. All runs of questions with any number of iterators, under every interpretation of the solver's variables.
  * Theorems: `Arrays.dict_real`, `Arrays.dict_all`, `Arrays.dict_described`, `Arrays.dict_abandoned`
* **C106 Symbolic sets are sets** — A symbolic set is a dictionary without values; its steps are simulated by those of C105. The deferred assumption extends the cache to a complete order.
  * Status: proved. All runs of questions with any number of iterators, under every interpretation of the solver's variables.
  * Theorems: `Arrays.set_real`, `Arrays.set_all`, `Arrays.set_described`, `Arrays.set_abandoned`
* **C107 Comparing and unifying symbolic containers** — Arrays are functions: with the contents known (C105, C106), equality of functions and lengths is equality of contents.
  * Status: proved. All dictionaries, sets and tuples of values that have a sort of their own. Equality of symbolic tuples is in C108.
  * Theorems: `Arrays.dict_eq_symbolic`, `Arrays.dict_unify`, `Arrays.set_eq_symbolic`, `Arrays.set_unify`, `Arrays.tuple_unify`
* **C108 Symbolic tuples are tuples** — Compare each method with that of the list of elements, by arithmetic on bounds and induction on loops.
  * Status: partial. All tuples. Steps of slices are dropped, and equal symbolic tuples can be found different (negations proved).
  * Theorems: `Arrays.tuple_all`, `Arrays.tuple_len`, `Arrays.tuple_get`, `Arrays.tuple_slice_partial`, `Arrays.tuple_step_dropped`, `Arrays.tuple_not_reversed`, `Arrays.tuple_eq`, `Arrays.tuple_eq_symbolic_partial`, `Arrays.tuple_eq_beyond_end`, `Arrays.tuple_order`, `Arrays.tuple_contains`, `Arrays.tuple_index`, `Arrays.tuple_mul`
* **C109 Objects in symbolic containers keep their identity** — Invariant by induction over histories: no address is in two places; heaps only grow, so that the first match stays the first.
  * Status: proved. All histories. The same reference taken as two types that do not unify gives two objects (proved as a disagreement).
  * Theorems: `Heap.find_again`, `Heap.find_apart`, `Heap.is_iff`, `Heap.find_new`, `Heap.two_types_two_objects`
* **C110 Old values stay as they were** — Induction over the run of a call: what it changes is in the last heap, and the objects of older heaps are others.
  * Status: partial. Objects known before the checkpoint are kept for lookups through the older snapshot. But the original arguments use the same heap as the copies given to the call (negations proved).
  * Theorems: `Heap.checkpoint_copies`, `Heap.old_kept_partial`, `Heap.original_shares`, `Heap.old_value_changed`, `Heap.first_old_lookup_live`
* **C111 Match objects give the groups** — Compare each method with the specification of a match by spans; induction on loops.
  * Status: partial. All matches, for numbers and names of existing groups. Positions only of groups that took part and by number; groupdict, lastindex and lastgroup differ from Python (negations proved).
  * Theorems: `Match.group_exact_partial`, `Match.group_whole`, `Match.group_many_partial`, `Match.groups_exact`, `Match.span_exact_partial`, `Match.group_past_end`, `Match.lastindex_partial`, `Match.group_negative`, `Match.group_unknown_name`, `Match.start_unmatched`, `Match.start_name`, `Match.groupdict_spans`, `Match.lastindex_none`, `Match.lastindex_nested`, `Match.lastgroup_other`
* **C112 Templates are expanded with the groups** — Parse what was rendered: induction on the parts of a template, with the text before the next reference as accumulator.
  * Status: partial. All templates of text and references without line feeds, if the groups took part; line feeds, other escapes, octal characters and groups that did not take part differ from Python (negations proved).
  * Theorems: `Match.expand_exact_partial`, `Match.expand_plain`, `Match.expand_unmatched`, `Match.expand_newline`, `Match.expand_escapes`, `Match.expand_octal`
* **C113 implies evaluates its consequence only when needed** — Mutual induction over expressions with a trace of what is evaluated.
  * Status: proved. All expressions; the value and the order of evaluation. Keyword arguments of implies are dropped (recorded).
  * Theorems: `Kinds.implies_lazy`, `Kinds.implies_refused`, `Kinds.implies_keywords_dropped`
* **C114 Leading assertions are preconditions, others are checked** — Split of the body at the first statement that is neither assertion nor literal; order of lines.
  * Status: partial. All bodies whose statements are on lines of their own, and tracebacks in which no function of that name and file is called further in; recursion, methods of the same name, and functions of assertions alone differ (negations proved).
  * Theorems: `Kinds.asserts_exact_partial`, `Kinds.asserts_others`, `Kinds.asserts_none`, `Kinds.asserts_last`, `Kinds.asserts_recursion_hidden`, `Kinds.asserts_same_name_hidden`
* **C115 icontract preconditions are a choice of groups** — Induction over groups and contracts.
  * Status: proved. All groups, for contracts that do not raise.
  * Theorems: `Kinds.icontract_pre`, `Kinds.icontract_short`
* **C116 deal contracts see the arguments of the function** — Python's argument binding as specification; induction over parameters; counting for keyword-only ones.
  * Status: partial. All parameters that may be given by position; keyword-only parameters make every call fail and *args are nested (negations proved).
  * Theorems: `Kinds.deal_args_partial`, `Kinds.deal_keyword_only`, `Kinds.deal_varargs`
* **C117 Registered contracts stay and get their arguments** — Invariant of the registry by induction over registrations.
  * Status: partial. All histories; arguments for conditions without optional parameters, for which it fails (negation proved).
  * Theorems: `Kinds.registered_stays`, `Kinds.refused_unchanged`, `Kinds.registered_pre_args_partial`, `Kinds.registered_post_args_partial`, `Kinds.registered_optional`
* **C118 Subscripts with symbolic keys** — Characterise the fan-out as the first option that holds; show that grouping loses no entry; then exactly the matching entry can be chosen.
  * Status: partial. All containers, integer keys and interpretations, if symbolics stand for exactly the values (not -0.0 as a real), and slices while the list is unchanged; float keys and later changes differ (negations proved).
  * Theorems: `Ops.fanout_first`, `Ops.subscript_exact_partial`, `Ops.index_exact_partial`, `Ops.index_float`, `Ops.index_negative_zero`, `Ops.slice_exact_partial`, `Ops.slice_aliased`
* **C119 f-strings of symbolic values** — Stack machine with the opcode and the interceptor around it.
  * Status: partial. Up to 255 pieces; fields without conversion, or with !s or !r and no specification. The rest differs from Python (negations proved).
  * Theorems: `Ops.build_string_partial`, `Ops.build_string_lost`, `Ops.format_exact_partial`, `Ops.format_conversion_spec`, `Ops.format_ascii`
* **C120 Comprehensions over symbolic keys** — Stack machine; induction over the turns of the comprehension.
  * Status: proved. All sequences of additions and stacks; keys whose equality is an equivalence.
  * Theorems: `Ops.dict_comprehension`, `Ops.set_comprehension`
* **C121 not and is see symbolic booleans as booleans** — Cases.
  * Status: proved. All operands.
  * Theorems: `Ops.not_exact`, `Ops.is_exact`
* **C122 Annotations with bars are rewritten to Union** — Induction over the nesting of brackets, with the loop's state (text so far, saved scopes, shifted index) as invariant.
  * Status: partial. All annotations without bars, brackets or commas between quotes; string literals with those are corrupted or raise (negations proved).
  * Theorems: `Stubs.rewrite_union`, `Stubs.rewrite_same`, `Stubs.rewrite_noBar`, `Stubs.rewrite_literal`, `Stubs.rewrite_quoted_bracket`
* **C123 Signatures found in stubs are the declared ones** — Mutual induction over the statements, against an inductive relation of what is declared.
  * Status: partial. All stubs; completeness if conditions mention sys. and can be evaluated and no function is async (otherwise signatures are missing although marked valid: negation proved).
  * Theorems: `Stubs.found_declared`, `Stubs.declared_found_partial`, `Stubs.invalid_reported`, `Stubs.skipped_valid`
* **C124 Results put in place after an instruction** — Induction over trees of frames and instructions, with the stack of callbacks as invariant.
  * Status: partial. All executions in which no instruction with a callback raises; after such an exception the callback is not dropped and runs later, or hides another (negations proved).
  * Theorems: `Callbacks.callbacks_exact_partial`, `Callbacks.ran_at_own_position`, `Callbacks.stale_runs`, `Callbacks.stale_hides`
* **C125 Comparing decimals** — The adjusted exponents bound the magnitudes; equal ones reduce the comparison to strings of equal length.
  * Status: proved. 
  * Theorems: `Decimal.comparisons`, `Decimal.comparisons_with_nans`
* **C126 Rounding decimals to the context** — Rounding functions against floor and ceiling of rationals; the result is shown to satisfy a specification that determines it.
  * Status: proved. 
  * Theorems: `Decimal.unary_plus`, `Decimal.unary_minus`, `Decimal.absolute_value`, `Decimal.nan_operand`, `Decimal.trapped`, `Decimal.IsResult.unique`
* **C127 Adding and subtracting decimals** — The replaced operand lies in the same cell between two neighbouring multiples as the original, so it rounds the same.
  * Status: proved. 
  * Theorems: `Decimal.addition`, `Decimal.subtraction`, `Decimal.infinite_sums`, `Decimal.nan_operands`, `Decimal.trapped`
* **C128 Multiplying decimals** — As C127; commutativity from uniqueness of the specified result.
  * Status: proved. 
  * Theorems: `Decimal.multiplication`, `Decimal.fused_multiply_add`, `Decimal.infinite_products`, `Decimal.commutative`, `Decimal.nan_operands`
* **C129 Dividing decimals** — One more digit than needed and a sticky last digit that is never 0 or 5 round like the exact quotient.
  * Status: proved. 
  * Theorems: `Decimal.division`, `Decimal.division_by_zero`, `Decimal.infinite_products`, `Decimal.nan_operands`
* **C130 Integer division of decimals** — Scaled to integers; bounds on the quotient from the adjusted exponents.
  * Status: proved. 
  * Theorems: `Decimal.integer_division`, `Decimal.remainder_nearest`, `Decimal.division_by_zero`, `Decimal.infinite_products`, `Decimal.infinite_modulus`, `Decimal.nan_operands`
* **C131 Turning decimals into integers and quantizing** — Rescaling against rounding of rationals; each check of quantize against the condition it stands for.
  * Status: proved. 
  * Theorems: `Decimal.to_integers`, `Decimal.to_integral`, `Decimal.quantizing`, `Decimal.nan_operands`
* **C132 Square roots of decimals** — Newton's iteration is shown to stop at the integer square root; one more digit than needed and a last digit that is never 0 or 5 for inexact roots round like the real root.
  * Status: proved. 
  * Theorems: `DecimalMore.square_root`, `DecimalMore.square_root_other`, `DecimalMore.nan_operand`
* **C133 Hashes of decimals** — The hash of a coefficient times a power of ten is a homomorphism modulo the prime; equal values differ by a power of ten.
  * Status: proved. 
  * Theorems: `DecimalMore.hash_equal`, `DecimalMore.hash_integer`
* **C134 Decimals as fractions** — Factors of two and five are counted; the rest is coprime to ten's powers.
  * Status: proved. 
  * Theorems: `DecimalMore.integer_ratio`
* **C135 Normalizing decimals** — Dropping zeros keeps the value; two normal forms with one value have the same exponent because otherwise one of them ends in zero.
  * Status: proved. 
  * Theorems: `DecimalMore.normalizing`, `DecimalMore.normal_form`, `DecimalMore.nan_operand`
* **C136 The total order of decimals** — Case analysis against a specification by layers.
  * Status: proved. 
  * Theorems: `DecimalMore.total_order`, `DecimalMore.total_order_strict`
* **C137 Neighbours of decimals** — Rounding upwards gives the least number that can be held and is not smaller; held numbers are multiples of the smallest unit.
  * Status: partial. The numbers are as stated, but signals are raised where the specification has none (next_plus_signals): with the traps of the default context the neighbour of the largest number is an exception. Missing is only that no signal is raised, which is false.
  * Theorems: `DecimalMore.next_plus_number`, `DecimalMore.next_minus_number`, `DecimalMore.next_infinite`, `DecimalMore.next_plus_signals`, `DecimalMore.nan_operand`
* **C138 Decimals as text** — Reading runs of digits is the inverse of writing them; the place of the point is general.
  * Status: proved. Text without spaces around it, underscores and digits outside ASCII.
  * Theorems: `DecimalMore.text_round_trip`, `DecimalMore.eng_round_trip`, `DecimalMore.text_form`, `DecimalMore.parse_form`
* **C139 Integer operators with any mix of operands** — The search for handlers is compared with a table by evaluation; each row of the table is then followed to the arithmetic of the solver.
  * Status: partial. Proved but for ** with negative exponents, where the code gives an integer instead of a float (int_pow_negative).
  * Theorems: `Numeric.int_arithmetic`, `Numeric.int_arithmetic_symbolic`, `Numeric.int_pow_partial`, `Numeric.int_pow_negative`
* **C140 Float operators with any mix of operands** — As C139; after all promotions there are a few cases with finite and infinite operands, each compared with Python's definitions.
  * Status: proved. Real-based floats; the sign of zero is not modelled.
  * Theorems: `Numeric.float_arithmetic`, `Numeric.divmod_constraints`
* **C141 Powers with infinities and NaN** — Case analysis on the sign of the exponent.
  * Status: partial. Proved for NaN and plus infinity as the base. For other operands the code takes the sign for the number and gives wrong results (pow_infinite).
  * Theorems: `Numeric.pow_base_partial`, `Numeric.pow_infinite`
* **C142 Comparisons with any mix of operands** — As C139; reflected operators are shown to compare the same way.
  * Status: partial. Proved for integers of any size, for floats with native integers up to 2**53, and for IEEE floats. Larger native integers are rounded or raise OverflowError when compared with a symbolic float (big_int_equal, big_int_overflow).
  * Theorems: `Numeric.int_comparisons`, `Numeric.float_comparisons_partial`, `Numeric.ieee_comparisons`, `Numeric.big_int_equal`, `Numeric.big_int_overflow`
* **C143 Bitwise operators with any mix of operands** — As C139; masks by the theorems about Ints.
  * Status: proved. 
  * Theorems: `Numeric.bitwise`, `Numeric.bool_bitwise`, `Numeric.float_bitwise`
* **C144 Rounding of symbolic floats** — Inequalities about the integer part.
  * Status: proved. Real-based floats.
  * Theorems: `Numeric.rounding`, `Numeric.round_half_even`, `Numeric.round_digits`, `Numeric.unary`
* **C145 Operators on IEEE floats** — As C139 with the solver's IEEE operations.
  * Status: partial. Proved for + - * / and the comparisons. // is the floor of the rounded quotient, so it is proved for exact quotients of finite floats and false for infinities (ieee_floordiv_infinite); % is the remainder of the nearest quotient, proved where that is the floor and false elsewhere (ieee_mod_nearest).
  * Theorems: `Numeric.ieee_arithmetic`, `Numeric.ieee_comparisons`, `Numeric.ieee_floordiv_partial`, `Numeric.ieee_floordiv_infinite`, `Numeric.ieee_mod_partial`, `Numeric.ieee_mod_nearest`
* **C146 Sign and class of numbers** — Case analysis.
  * Status: partial. Proved but for copysign of an integer, whose result is an integer instead of a float (copysign_kind).
  * Theorems: `Numeric.copysign_partial`, `Numeric.classification`, `Numeric.makeFloat_complete`, `Numeric.copysign_kind`
* **C147 Case and whitespace methods of byte strings** — Case analysis per byte; the loops are shown to be dropWhile from either end, and the result is characterised by what was removed and what is left at the ends.
  * Status: proved. 
  * Theorems: `Buffers.case_methods`, `Buffers.case_laws`, `Buffers.lstrip_spec`, `Buffers.rstrip_spec`, `Buffers.strip_spec`, `Buffers.stripped_unique`
* **C148 Operators between bytes-like types** — Tables of types compared by cases; the order is the lexicographic one of Seq.
  * Status: partial. Ordering and + proved; == but for bytes and arrays, which the code considers comparable (bytes_equal_array). Arrays of wider numbers are left out (bytearray_add_wide).
  * Theorems: `Buffers.ordering_spec`, `Buffers.equality_partial`, `Buffers.addition_spec`, `Buffers.right_addition_spec`, `Buffers.search_int`, `Buffers.bytes_equal_array`, `Buffers.bytearray_add_wide`
* **C149 Memoryviews are windows on their object** — States with lazily referring cells are related to states with plain bytes; every fitting operation keeps the relation (refinement), by induction over histories. Witnesses for the rest.
  * Status: partial. Proved for all histories whose operations fit: writes within a view, slices with explicit non-negative first bound, no resizing under a view. Outside of that the code is wrong in the ways shown by the other theorems.
  * Theorems: `Buffers.buffers_history_partial`, `Buffers.readonly_write`, `Buffers.view_write_outside`, `Buffers.view_slice_open`, `Buffers.view_slice_negative`, `Buffers.view_slice_outside`, `Buffers.view_self_assignment`, `Buffers.resize_with_view`, `Buffers.extend_error`
* **C150 Copies of buffers do not change** — From C149 and the fact that in Python an operation changes only the object it is applied to.
  * Status: partial. Proved for copies of bytes and bytearrays. Copies of memoryviews stay connected to the object (tobytes_changes, extend_view_changes).
  * Theorems: `Buffers.copies_stay_partial`, `Buffers.tobytes_changes`, `Buffers.extend_view_changes`
* **C151 Buffers contain bytes only** — Invariant over histories: every number stored is a byte; references are followed by induction on the depth.
  * Status: partial. Proved but for bytearray([...]), which does not check its argument (bytearray_unchecked).
  * Theorems: `Buffers.reads_bytes_partial`, `Buffers.failure_changes_nothing`, `Buffers.bytearray_unchecked`
* **C152 Exhaustion of cover and search accounts for every input** — Invariant of the loop: every exhausted part of the tree accounts for all inputs that meet its constraints; induction over the rounds and over the steps of an iteration.
  * Status: proved. 
  * Theorems: `Explore.exhausted_accounts`, `Explore.exhausted_covers`
* **C153 What cover and search explore is real, fresh and limited** — Induction over the rounds with the invariants of the search tree (shape, feasibility, remaining paths).
  * Status: proved. 
  * Theorems: `Explore.found_are_real`, `Explore.paths_never_repeat`, `Explore.exploring_never_fails`, `Explore.stops_for_a_reason`, `Explore.small_programs_are_exhausted`
* **C154 diffbehavior: exhausted without differences means the same behaviour** — C152 for the program composed of the parts of an iteration; a lemma splits what accounts for an input into what each part does on it. Witnesses for the conditions.
  * Status: partial. Proved when no path was cut short, comparing and describing do not fail, and for the signature whose half was exhausted. Without these the claim is false of the code, as the other theorems show.
  * Theorems: `Explore.exhausted_half`, `Explore.likely_the_same_partial`, `Explore.half_rounds`, `Explore.exhausted_although_cut_short`, `Explore.exhausted_although_untold`, `Explore.exhausted_although_half`, `Explore.one_iteration_is_none`
* **C155 diffbehavior: reported differences are real** — C153 for the composed program; a lemma splits a run into the runs of its parts.
  * Status: proved. 
  * Theorems: `Explore.differences_are_real`, `Explore.report_from_halves`
* **C156 search: examples are real, and exhaustion means there is none** — The same for the program composed of the creation of arguments, the call and the formatting. Witness for ignored paths.
  * Status: partial. The call either returned or its path was one to be ignored: the code takes the latter for a success (search_reports_an_ignored_path).
  * Theorems: `Explore.search_example_is_real_partial`, `Explore.search_finds_all`, `Explore.search_reports_an_ignored_path`
* **C157 Dates survive being written and read** — Numerals of fixed width: padding writes them, int() reads them; the parser on a list of ten characters. Witnesses for the leniency of int().
  * Status: partial. That nothing else is read is proved for texts without plus signs, underscores, white space and non-ASCII characters; with them it is false of the code (date_reads_a_sign).
  * Theorems: `DateText.date_roundtrip`, `DateText.date_reading`, `DateText.dates_read_exactly_partial`, `DateText.date_reads_a_sign`
* **C158 Times survive being written and read** — The five forms of a clock text one by one in both directions; the offset through the arithmetic of durations proved in Dates.
  * Status: partial. That nothing else is read is proved for plain texts with at most one sign; for others it is false of the code (time_reads_two_signs).
  * Theorems: `DateText.time_roundtrip`, `DateText.time_reading`, `DateText.times_read_exactly_partial`, `DateText.time_reads_two_signs`
* **C159 Dates with times survive being written and read** — From C157 and C158, splitting after ten characters.
  * Status: partial. That nothing else is read is proved for texts of 10 or at least 12 plain characters; short texts raise IndexError or are read although cut off.
  * Theorems: `DateText.stamp_roundtrip`, `DateText.stamp_reading`, `DateText.stamps_read_exactly_partial`, `DateText.short_text_is_index_error`, `DateText.cut_texts_are_read`
* **C160 ISO texts sort like what they stand for** — Lexicographic order of numerals of equal width is the order of their values; then field by field.
  * Status: proved. 
  * Theorems: `DateText.date_texts_sort`, `DateText.time_texts_sort`, `DateText.stamp_texts_sort`
* **C161 Texts of durations and names of zones are unambiguous** — A text splits uniquely at the first character that is no digit; the two ways of writing an offset agree.
  * Status: proved. 
  * Theorems: `DateText.duration_texts`, `DateText.zone_names`
* **C162 The text of a counterexample evaluates to the counterexample** — A reader of Python's grammar for displays, calls and assignment expressions that evaluates from left to right; induction over values with an invariant relating the objects already written to the variables and identities of the interpreter. Witnesses for the three failures.
  * Status: partial. Proved unless a tuple has one part, or a shared object first appears as a keyword argument or in a dictionary; in these cases it is false of the code.
  * Theorems: `Repro.call_text_evaluates_partial`, `Repro.unshared_call_text_evaluates_partial`, `Repro.keyword_text_is_no_python`, `Repro.dict_text_is_no_python`, `Repro.single_tuple_text_is_no_tuple`
* **C163 Variables in the text of a counterexample** — The names in a text are the objects in the order they are met; assigned names are the first occurrences; the numbering loop counts them.
  * Status: proved. 
  * Theorems: `Repro.variables_assigned_once_before_use`, `Repro.variables_in_order`
* **C164 The written arguments bind to the same parameters** — Induction over the signature: once an argument is written by keyword, all later ones are.
  * Status: partial. Proved unless extra positional arguments follow a parameter with a default; then it is false of the code.
  * Theorems: `Repro.written_arguments_bind_back_partial`, `Repro.default_before_varargs_is_no_python`
* **C165 The result text of cover evaluates to the result** — In a context that names none of its objects, a value has the same text as in a fresh context; then as C162. Witness: the empty bytes.
  * Status: partial. Proved when the result shares no object with the arguments (and within the limits of C162); otherwise it is false of the code.
  * Theorems: `Repro.result_text_evaluates_partial`, `Repro.value_text_evaluates_partial`, `Repro.shared_result_text_is_empty`
* **C166 The argument dictionary of cover evaluates to the arguments** — The text is that of a dictionary display of names and arguments; then as C162.
  * Status: partial. Proved when no shared object first appears as an argument or in a dictionary (and within the limits of C162); otherwise it is false of the code.
  * Theorems: `Repro.dictionary_text_evaluates_partial`, `Repro.shared_arguments_dictionary`
* **C167 Conversion between time zones keeps the instant** — Readings of clocks are counted in microseconds; addition and subtraction of offsets are exact or overflow (from C66). Zones are functions of the reading; local time is a function from seconds to offsets.
  * Status: proved. 
  * Theorems: `Zones.astimezone_fixed`, `Zones.astimezone_standard`, `Zones.astimezone_local`, `Zones.astimezone_naive`
* **C168 Timestamps of aware moments** — The split into seconds and microseconds is shown to be the nearest integer, ties to even, of the microseconds; the nearest integer is unique.
  * Status: proved. 
  * Theorems: `Zones.timestamp_aware`, `Zones.fromtimestamp_fixed`, `Zones.timestamp_roundtrip`, `Zones.utcfromtimestamp_nearest`
* **C169 Timestamps of naive moments** — The probing algorithm is reduced to arithmetic on offsets with one change; a case analysis decides all comparisons.
  * Status: proved. 
  * Theorems: `Zones.timestamp_naive`
* **C170 Naive moments from timestamps** — The probe a day before sees the change exactly if the reading repeats; the round trip follows from C169 since the set fold selects the very same solution.
  * Status: proved. 
  * Theorems: `Zones.fromtimestamp_naive`, `Zones.naive_roundtrip`
* **C171 Equality and order of moments** — Decision by the identity of zones, then by offsets with both folds, then by the difference of instants.
  * Status: proved. 
  * Theorems: `Zones.equality`, `Zones.ordering`
* **C172 Equal moments and times hash alike** — What is hashed is a function of the instant, or of the fields of the clock when there is no offset. Witness for the failing assertion.
  * Status: partial. Proved for moments; for times of day if offsets are of whole minutes, otherwise the hash of the code fails.
  * Theorems: `Zones.equal_moments_hash_alike`, `Zones.equal_times_hash_alike_partial`, `Zones.time_hash_fails`
* **C173 Taking moments apart and putting them together** — Day numbers and dates correspond (from C62); field checks are exactly validity.
  * Status: proved. 
  * Theorems: `Zones.combine_parts`, `Zones.replace_fields`
* **C174 Time tuples** — Day numbers are determined by the calendar (from C62); the day of the year is a difference of day numbers.
  * Status: proved. 
  * Theorems: `Zones.timetuple_fields`, `Zones.utctimetuple_fields`
* **C175 Logical operations on decimals** — The digit of a number at a place is specified by division; padding, cutting and zipping are followed digit by digit, and a number is determined by its digits.
  * Status: proved. 
  * Theorems: `DecimalDigits.logical_operations`, `DecimalDigits.logical_inversion`, `DecimalDigits.logical_invalid`
* **C176 Shifting, rotating and scaling decimals** — As C175: each digit of the result is traced to its place before the move. Scaling is one rounding of the exact product.
  * Status: proved. 
  * Theorems: `DecimalDigits.shifting`, `DecimalDigits.rotation`, `DecimalDigits.scaling`, `DecimalDigits.shift_limits`
* **C177 The exponent of a decimal** — The exponent of the leading digit is unique; the rest is one rounding of an integer (from C72).
  * Status: proved. 
  * Theorems: `DecimalDigits.exponent`
* **C178 The class of a decimal** — Bounds of a number by the exponent of its leading digit.
  * Status: proved. 
  * Theorems: `DecimalDigits.classes`
* **C179 Maxima and minima of decimals** — Comparison by value (C71) refined by the total order of representations; the result is one rounding of the chosen operand.
  * Status: proved. 
  * Theorems: `DecimalDigits.extremes`, `DecimalDigits.extremes_of_magnitude`, `DecimalDigits.extremes_nan`
* **C180 The next decimal towards another** — From the next numbers up and down; a witness for the additional signals.
  * Status: partial. Values and the required signals are proved; the code also signals Inexact and Rounded for ordinary neighbours.
  * Theorems: `DecimalDigits.next_toward_partial`, `DecimalDigits.next_toward_signals`
* **C181 Rounding to integers with signals** — Rounding to a multiple of a power of ten; comparison by value decides the signal.
  * Status: proved. 
  * Theorems: `DecimalDigits.to_integral_exact`
* **C182 Comparing decimals with signals, quanta and signs** — Case analysis with comparison by value and the total order.
  * Status: proved. 
  * Theorems: `DecimalDigits.compare_numbers`, `DecimalDigits.compare_nans`, `DecimalDigits.total_order_of_magnitudes`, `DecimalDigits.same_quantum`, `DecimalDigits.copy_sign`
* **C183 Integers and significant digits among decimals** — Divisibility of the coefficient by a power of ten; bounds of a rounded number, with the carry into a new digit.
  * Status: proved. 
  * Theorems: `DecimalDigits.integers`, `DecimalDigits.even_integers`, `DecimalDigits.significant_digits`
* **C184 What is checked for a function** — The function is followed branch by branch; a condition without compiled form has a message, so a contract without messages is checked completely.
  * Status: proved. 
  * Theorems: `Analyze.function_checks`
* **C185 What is checked for a class** — Soundness and completeness of the loop over the methods, with the conditions of classes from C21 ff.
  * Status: proved. With the exception of invariants on constructors (C187).
  * Theorems: `Analyze.class_checks_only`, `Analyze.class_checks_all`
* **C186 Subclasses are checked against inherited postconditions** — Composition of C185 with the inheritance of conditions.
  * Status: proved. 
  * Theorems: `Analyze.inherited_checked`
* **C187 Invariants are not checked on constructors** — If the constructor has only invariants it is left out; a witness with a precondition.
  * Status: partial. They are checked after all if the constructor has another condition.
  * Theorems: `Analyze.init_invariants_partial`, `Analyze.init_invariants_checked`
* **C188 Directives set the kind of analysis** — C184; a witness class with a directive.
  * Status: partial. Obeyed for functions; for methods the kinds chosen for the class are used.
  * Theorems: `Analyze.function_checks`, `Analyze.method_kind_ignored`
* **C189 What is analysed in a module** — Sorting by distinct names has a unique result.
  * Status: proved. 
  * Theorems: `Analyze.module_checks`, `Analyze.module_order_exists`
* **C190 Messages are placed in the function analysed** — Case analysis; a witness for the boundary.
  * Status: partial. The line after the function counts as inside.
  * Theorems: `Analyze.message_place_partial`, `Analyze.line_after_function`
* **C191 The signature under which a method is analysed** — Case analysis over descriptors; a witness without parameters.
  * Status: partial. Fails for functions without parameters in a class.
  * Theorems: `Analyze.callable_signature`, `Analyze.callable_none`, `Analyze.callable_crash`
* **C192 Patching a method keeps its kind** — Case analysis over descriptors.
  * Status: proved. 
  * Theorems: `Analyze.patch_keeps`
* **C193 Names in conditions mean what they mean in the function** — Induction over wrappers; a witness.
  * Status: partial. Fails for closure variables with the name of a global variable.
  * Theorems: `Analyze.names_partial`, `Analyze.names_shadowed`
* **C194 Arguments are made for every parameter** — Induction over the parameters; the counter in hexadecimal after the last underscore identifies the variable.
  * Status: proved. 
  * Theorems: `Inputs.arguments`, `Inputs.variables_distinct`
* **C195 Enumerations and typed dictionaries are explored completely** — Induction over members with the decisions constructed.
  * Status: proved. 
  * Theorems: `Inputs.enum_choice`, `Inputs.typed_dict_keys`
* **C196 Deeply immutable values are recognised** — Mutual induction over values; a witness.
  * Status: partial. Instances of ordinary classes within tuples are overlooked.
  * Theorems: `Inputs.immutable_partial`, `Inputs.tuple_hides_mutable`
* **C197 Testing immutability leaves the tracer as it was** — Popping the reversed stack empties it.
  * Status: proved. 
  * Theorems: `Inputs.modules_restored`
* **C198 Analysis stops after uninteresting iterations only** — Walk along a path with an invariant on places; reverse induction over the history.
  * Status: partial. Decisions after detaching count if no decision comes right before; numbers of expressions must not be reused.
  * Theorems: `Oracles.uninteresting_partial`, `Oracles.detached_ignored`
* **C199 What led to a place is remembered and repeated** — Invariant of the tables of numbers; exact counts by induction over paths and histories; the bias by cases.
  * Status: partial. As long as addresses of expressions are not used again: the table keeps addresses of expressions that it does not keep alive.
  * Theorems: `Oracles.conditions_recorded_partial`, `Oracles.bias_partial`, `Oracles.number_reused`
* **C200 Branch decisions are probabilities and certainties stay** — Case analysis over the rationals; a witness.
  * Status: partial. Preferred constraints override certainty.
  * Theorems: `Oracles.probabilities`, `Oracles.certainty_partial`, `Oracles.certainty_overridden`
* **C201 Breadth first tries the branch not tried** — Case analysis over the rationals.
  * Status: proved. 
  * Theorems: `Oracles.breadth_first`
* **C202 Preferred constraints are kept** — Induction over the decisions, with the solver as satisfiability.
  * Status: proved. 
  * Theorems: `Oracles.preferred_kept`
* **C203 Heuristics take turns** — Induction over the history for all heuristics at once.
  * Status: proved. 
  * Theorems: `Oracles.rotation`
* **C204 Results that cannot be compared are recognised** — Mutual induction over values with the depth; witnesses.
  * Status: partial. Functions in keys of dictionaries or more than three containers deep are overlooked.
  * Theorems: `Differential.comparable_partial`, `Differential.deep_function`, `Differential.key_function`
* **C205 Stand-ins have the type of the input** — Mutual induction over values and types; removing duplicates keeps membership.
  * Status: proved. 
  * Theorems: `Differential.standin_type`
* **C206 Summaries of runs** — Case analysis over the steps of a run.
  * Status: proved. 
  * Theorems: `Differential.summary`, `Differential.arguments_apart`
* **C207 Divergence reports** — Induction over inputs and attempts.
  * Status: proved. 
  * Theorems: `Differential.differential`, `Differential.pinned_result`
* **C208 Docstring conditions become the function's conditions** — On top of the grammar of docstrings; induction over what was found.
  * Status: proved. 
  * Theorems: `Pep316.function_conditions`, `Pep316.builtin_conditions`
* **C209 Syntax errors in contracts are reported** — Induction over what was found; a witness.
  * Status: partial. Proved for functions; for classes, complaints about sections are dropped.
  * Theorems: `Pep316.syntax_errors`, `Pep316.class_invariants_partial`, `Pep316.invariant_dropped`
* **C210 Names in conditions** — Directly from the order of dictionaries.
  * Status: proved. 
  * Theorems: `Pep316.names_in_conditions`
* **C211 Mutable arguments** — Splitting as an inverse of joining; stripping; witnesses.
  * Status: partial. As long as no blank comes before a dot; blank entries give an argument without a name.
  * Theorems: `Pep316.mutable_arguments_partial`, `Pep316.blank_before_dot`, `Pep316.blank_brackets`
* **C212 Declared exceptions are allowed** — The regular expression as a scan over the text, by induction over its lines; a witness.
  * Status: partial. As long as no line is just the word raises.
  * Theorems: `Pep316.declared_exceptions_partial`, `Pep316.next_line_taken`
* **C213 Decimal exponentials are correctly rounded** — Error analysis of the series and of the squarings in real numbers; cells between rounding boundaries; termination by the irrationality of exponentials.
  * Status: proved. 
  * Theorems: `DecimalFunctions.exponential`, `DecimalFunctions.exponential_special`, `DecimalFunctions.function_nan`
* **C214 Decimal logarithms are correctly rounded** — Error analysis of argument reduction and series; lower bounds for the logarithms; termination by irrationality.
  * Status: proved. 
  * Theorems: `DecimalFunctions.natural_logarithm`, `DecimalFunctions.natural_logarithm_special`, `DecimalFunctions.decimal_logarithm`, `DecimalFunctions.decimal_logarithm_power`, `DecimalFunctions.decimal_logarithm_special`, `DecimalFunctions.function_nan`
* **C215 Stored digits of ln 10** — Invariant over histories of calls; the first digits by evaluation of the model, whose error is bounded.
  * Status: proved. 
  * Theorems: `DecimalFunctions.log_ten_digits`
* **C216 Integer helpers of decimal functions** — Algebra on quotients and remainders; Newton iteration.
  * Status: proved. 
  * Theorems: `DecimalFunctions.nearest_quotient`, `DecimalFunctions.nearest_root`, `DecimalFunctions.shift_exactly`
* **C217 Error bounds of decimal approximations** — Induction over rounded steps, with bounds from real analysis.
  * Status: proved. For exp, three digits at least, as its callers ask for.
  * Theorems: `DecimalFunctions.logarithm_approximations`, `DecimalFunctions.exponential_approximation`
* **C218 Case conversions of symbolic strings** — Tables as constraints, satisfied by an arbitrary interpretation; induction over the string.
  * Status: partial. Final sigma is not modelled by the code (disagreement proved); without it, all six methods are Python's.
  * Theorems: `CaseMaps.upper_casefold`, `CaseMaps.lower_partial`, `CaseMaps.swapcase_partial`, `CaseMaps.title_partial`, `CaseMaps.capitalize_partial`, `CaseMaps.final_sigma_lost`
* **C219 Kinds of characters are Python's** — Invariant of the scan over all characters; operations of masks from C84.
  * Status: proved. 
  * Theorems: `CaseMaps.tests_hold`, `CaseMaps.tests_exist`
* **C220 Tables of characters are shared safely between paths** — Invariant over histories of requests; names of functions are different.
  * Status: proved. 
  * Theorems: `CaseMaps.told_exactly`, `CaseMaps.requests_served`, `CaseMaps.consistent`
* **C221 Translating symbolic strings** — Induction over the string.
  * Status: partial. A LookupError that is neither KeyError nor IndexError escapes (disagreement proved).
  * Theorems: `CaseMaps.translate_partial`, `CaseMaps.lookup_error_escapes`
* **C222 Numbers of symbolic characters** — Tables as constraints, satisfied by an arbitrary interpretation.
  * Status: proved. The fraction that limit_denominator finds for numeric is taken from Python.
  * Theorems: `CaseMaps.numbers_of_characters`
* **C223 Made values belong to their annotations** — Annotations as an inductive type, membership as an inductive relation; induction over the depth of the recursion.
  * Status: partial. Tuple[()] on Python 3.11 or newer and IO[bytes] are excluded: for them it is false (disagreements proved).
  * Theorems: `Proxies.made_belongs_partial`, `Proxies.empty_tuple_filled`, `Proxies.binary_stream_is_text`
* **C224 Every value of an annotation can be made** — Induction over membership: answers that lead to the value are put together.
  * Status: partial. Sequence and classes as types of entries of typed dictionaries are excluded: for them it is false (disagreements proved).
  * Theorems: `Proxies.every_value_made_partial`, `Proxies.sequence_never_list`, `Proxies.entry_never_derived`
* **C225 Parts of inputs are independent** — Names as lists of characters; parts are separated by incomparable suffixes or fresh numbers; induction over the parts.
  * Status: partial. Keys that begin with other keys and parameters named like parts of others are excluded: for them it is false (disagreements proved).
  * Theorems: `Proxies.inputs_free_partial`, `Proxies.inputs_free_plain`, `Proxies.keys_share_variables`, `Proxies.parameters_share_variable`
* **C226 Registered contracts are exactly what was registered** — The registry with lists as objects refines a relation that reads only the events about one function; invariant: lists of different functions are different, lists not yet passed are unchanged.
  * Status: partial. Lists that are passed more than once are excluded: for them it is false, and lists that are passed change (disagreements proved).
  * Theorems: `Registry.registry_exact_partial`, `Registry.holds_one`, `Registry.shared_list_grows`, `Registry.own_list_changes`
* **C227 A contract once found stays** — Invariant over all steps, also with shared lists: contracts grow by prefix.
  * Status: partial. All sequences. That the order does not matter is false (disagreement proved): a lookup blocks a later registration.
  * Theorems: `Registry.contract_stays`, `Registry.lookup_repeats`, `Registry.lookup_blocks_registration`
* **C228 Functions of registered modules are registered, and no others** — From the refinement, by induction over the events.
  * Status: partial. All sequences in which each list is passed at most once.
  * Theorems: `Registry.automatic_only_partial`, `Registry.automatic_always_partial`
* **C229 Nothing is marked in a file with unsaved changes** — Transition system of the two threads with one step for each access to the shared dictionary; invariant over calm schedules, and concrete schedules as counterexamples. Stale marks are shown to stay by an invariant over all schedules.
  * Status: partial. Proved when nothing happens in the editor while the analysis publishes or starts again; for other schedules it is false (disagreements proved).
  * Theorems: `Editor.unsaved_unmarked_partial`, `Editor.publish_race`, `Editor.forget_race`, `Editor.restart_race`
* **C230 Exactly the worst messages are marked, one for each line** — Refinement: the dictionary of messages of a file agrees with the list of messages found since; a pass over the snapshot sends each file.
  * Status: partial. As for C229. A message without an absolute file name ends the analysis for good (disagreement proved).
  * Theorems: `Editor.marks_exact_partial`, `Editor.publish_ends`, `Editor.nameless_file_ends`
* **C231 Marks are where the message is** — Take away the spaces at both ends; columns are compared with units of UTF-16.
  * Status: partial. For lines that exist and have only characters below 65536; otherwise false (disagreements proved).
  * Theorems: `Editor.mark_covers_partial`, `Editor.wide_characters`, `Editor.line_zero`
* **C232 Rounding and fractions of symbolic floats are Python's** — Exact arithmetic on rationals against the definitions of the nearest integer with ties to even, and of lowest terms.
  * Status: partial. Rounding to digits is proved for integers n for which 10**n is read exactly; otherwise it is false (disagreements proved).
  * Theorems: `Floats.real_exact`, `Floats.real_round_digits_partial`, `Floats.many_digits`, `Floats.few_digits`, `Floats.float_digits`, `Floats.ratio_exact`
* **C233 Symbolic IEEE floats convert as Python's floats do** — Model of correct rounding to 53 bits, proved against a definition of nearest IEEE float with ties to even by the exponent of the last place.
  * Status: partial. Correct rounding of integers is proved for all integers; too large ones become infinity instead of an error. Rounding to a number of digits other than 0 is false (disagreements proved).
  * Theorems: `Floats.int_float_partial`, `Floats.huge_integer`, `Floats.ieee_exact`, `Floats.ieee_is_integer_partial`, `Floats.is_integer_infinite`, `Floats.floor_is_float`, `Floats.round_large`, `Floats.round_twice`
* **C234 The float of a symbolic text is the number it denotes** — Inductive definition of the texts of numbers and their values; the parts found by the regular expression are shown to be exactly these.
  * Status: partial. Real numbers: when powers of ten are read exactly. IEEE floats: texts without fraction, or with an integer part 0 and at most 15 digits; false in general (disagreements proved).
  * Theorems: `Floats.real_text_partial`, `Floats.ieee_text_partial`, `Floats.text_rounded_twice`, `Floats.long_fraction`
* **C235 At every call instruction, what is called is found and replaced** — Layouts of the stack for each version and instruction as a specification of the interpreter; reading and writing at the computed position is related to taking the arguments off the stack by induction on their number.
  * Status: partial. For less than 256 arguments; with more it is false (disagreement proved).
  * Theorems: `Calls.callee_replaced_partial`, `Calls.many_arguments`, `Calls.keywords_kept`, `Calls.keyword_other`
* **C236 A patched function is replaced however it is called** — Small model of objects that can be called and of what is executed; case analysis on the object, and composition with C235.
  * Status: partial. For objects whose class has the built-in method under its name and that do not hide __call__; false for methods obtained from super(), objects with an own __call__, and methods of None (disagreements proved).
  * Theorems: `Calls.call_replaced_partial`, `Calls.instruction_replaced_partial`, `Calls.super_method`, `Calls.instance_call`, `Calls.none_method`
* **C237 The depth of the interpreter's stack is known at every instruction** — Runs of code as an inductive relation, independent of the algorithm. Invariant: only depths of runs are marked; after the last pass what follows a marked instruction is marked; each further pass marks a new place.
  * Status: proved. What the compiler makes sure of is a hypothesis (Compiled). Without it, for a range of exceptions that is not entered at its start, no depth is found in the handler (proved, too).
  * Theorems: `Depths.depth_correct`, `Depths.marking_ends`, `Depths.only_reached`, `Depths.range_entered_late`
* **C238 All instructions that matter are intercepted, and so is what follows them** — Same invariant of the last pass, with the flags.
  * Status: partial. For instructions without prefix; instructions with large arguments are not flagged (disagreement proved).
  * Theorems: `Depths.flagged_partial`, `Depths.prefixed_not_traced`
* **C239 The cache of stack depths never confuses two pieces of code** — Invariant of the cache over histories: every entry is right, at most 64.
  * Status: proved. Codes are compared by identity; entries keep them alive.
  * Theorems: `Depths.cache_transparent`, `Depths.cache_bounded`
* **C240 Known bounds of integers never change what a program can observe** — State with objects, bounds, pending results and constraints; a reference interpreter without bounds; simulation invariant by induction over operations.
  * Status: proved. Comparisons with constants by < and >; other comparisons do not use bounds.
  * Theorems: `Bounds.path_exact`, `Bounds.bounds_right`, `Bounds.objects_right`, `Bounds.shortcut_right`, `Bounds.decision_answered`
* **C241 Functions given as arguments behave like the code shown for them** — Calls and evaluated code as sequences of results; induction on the number of calls.
  * Status: partial. False for a single value whose str is not its repr, like a text (disagreement proved).
  * Theorems: `Lazy.call_results`, `Lazy.shown_behaves_partial`, `Lazy.shown_text`
* **C242 Copies of functions behave the same, and equal functions, too** — The same sequences of results, for a copy and for equal functions.
  * Status: partial. Copying fails when all values are used, and the comparison does not look at the position of the other function (disagreements proved).
  * Theorems: `Lazy.copy_behaves_partial`, `Lazy.copy_used_up`, `Lazy.eq_behaves_partial`, `Lazy.eq_moved`, `Lazy.eq_copy`
* **C243 Copies of arguments are independent of what the program does** — Memory with the object behind the proxy; invariant over the changes.
  * Status: partial. If the type was decided before; otherwise the copy is the object itself (disagreement proved).
  * Theorems: `Lazy.deepcopy_keeps_partial`, `Lazy.deepcopy_undecided`
* **C244 Format specifiers for decimals mean what is written** — The grammar as a structure with a function that writes it; each part is read back, and what is read was written.
  * Status: proved. Digits in specifiers are ASCII in the model.
  * Theorems: `DecimalFormat.specifier_read`, `DecimalFormat.specifier_rejected`, `DecimalFormat.specifier_unambiguous`
* **C245 Thousands separators and padding with zeros** — Relation between digits and separated text; induction over the loop, with minimality of the zeros.
  * Status: proved. For the forms of groupings that a locale can have.
  * Theorems: `DecimalFormat.digits_separated`, `DecimalFormat.grouping_deterministic`
* **C246 A formatted decimal shows the number** — The digits on both sides of the point as a number, against the rounding of rationals; layout as a relation.
  * Status: proved. The exponent is not limited by the machine in the model.
  * Theorems: `DecimalFormat.number_shown`, `DecimalFormat.special_shown`
* **C247 Formatting a decimal without a specifier is str** — Equality of both computations by the place of the point.
  * Status: proved. 
  * Theorems: `DecimalFormat.format_plain`
* **C248 Watch mode shows no results from before a change** — Invariant of the pool over all actions: items are numbered, and those of the current pool come after the change.
  * Status: proved. 
  * Theorems: `Passes.nothing_stale`
* **C249 A pass of watch mode gives out each result once, and all of them** — Invariant: waiting and live items have no result, others at most one; ghost list of results since the last look at the queue. Witness of a lost result.
  * Status: partial. At most once is proved for all histories. A result that comes in between the last look at the queue and the removal of ended workers is not given out in the pass (negation proved).
  * Theorems: `Passes.shown_once`, `Passes.pass_complete_partial`, `Passes.result_missed`
* **C250 Each pass hands out every file, most recently changed first** — Exact result of spawning; insertion sort; witness for the order.
  * Status: partial. Every file is handed out, with the right time limit; but the oldest are started first, since the pool takes work from the back of the list (negation proved).
  * Theorems: `Passes.oldest_first`, `Passes.newest_last`
* **C251 Watch mode checks for changes about once a second and stops when asked** — Invariant over the times of checks; a measure for the steps left.
  * Status: proved. The two readings of the clock in one check are taken to be the same.
  * Theorems: `Passes.checks_apart`, `Passes.change_ends_pass`, `Passes.shutdown_ends`
* **C252 What analysed code prints does not disturb the results in watch mode** — Induction over the splitting of lines; Base64 round trip of area B64; witness.
  * Status: partial. Pickling and compression are parameters. Holds if the text printed ends with the end of a line; otherwise the result is lost (negation proved).
  * Theorems: `Passes.result_arrives_partial`, `Passes.unfinished_line_loses_result`
* **C253 Representations of dates and times evaluate to the same values** — Each text is the printed form of an expression; reading undoes printing (induction over expressions); the constructors give the value back, case by case over the fields left out.
  * Status: proved. Reading is a specification of the subset of Python expressions needed; quoting of texts is a parameter (any quoting that can be read back). Subclasses and zones other than `timezone` are not modelled.
  * Theorems: `DateRepr.delta_repr_eval`, `DateRepr.date_repr_eval`, `DateRepr.zone_repr_eval`, `DateRepr.time_repr_eval`, `DateRepr.stamp_repr_eval`, `DateRepr.quotes_exist`
* **C254 `ctime` gives the right weekday, month, day, time and year** — Against a specification of the text with a numbering of the days; fields of fixed width determine the values.
  * Status: proved. 
  * Theorems: `DateRepr.ctime_text`, `DateRepr.ctime_determines`
* **C255 `strftime` expands every directive once** — Induction over the format; texts put in have no percent signs, or escaped ones.
  * Status: proved. The system's `strftime` is a parameter that expands directives of one character.
  * Theorems: `DateRepr.strftime_text`
* **C256 Functions of `itertools` work under analysis as they do without it** — Case by case over the argument; induction over the items; witnesses for `None`.
  * Status: partial. All functions and arguments left out; with `None` as the function `filterfalse`, `groupby` and `accumulate` fail under analysis (negation proved). Items are taken all at once; keyword names of parameters are not modelled.
  * Theorems: `Wrappers.same_as_replaced_partial`, `Wrappers.filterfalse_none`, `Wrappers.groupby_none`, `Wrappers.accumulate_none`
* **C257 Functions of `itertools` give the documented items** — Induction over the items against independent descriptions of groups and totals.
  * Status: proved. The functions of the standard library are modelled by their loops.
  * Theorems: `Wrappers.filters_documented`, `Wrappers.groupby_documented`, `Wrappers.accumulate_documented`
* **C258 Cached functions give the same results under analysis** — Invariant: the cache holds only results of the function; induction over calls; witnesses.
  * Status: partial. Holds if results depend only on the key of the arguments. Functions with effects on their results, or that tell apart arguments with equal keys (`1` and `1.0`), give other results (negations proved).
  * Theorems: `Wrappers.cache_skipped_partial`, `Wrappers.cache_effects`, `Wrappers.cache_keys`
* **C259 Partial applications pass on all arguments** — Lookup in the merged keywords; witness.
  * Status: partial. A keyword named `func` is a `TypeError` under analysis (negation proved).
  * Theorems: `Wrappers.partial_same_partial`, `Wrappers.partial_arguments`, `Wrappers.partial_func_keyword`
* **C260 In-place operators on objects of unknown type change only what Python would change** — Simulation of Python's variables and heap by proxies, statement by statement; witness `y = x; x += 1`.
  * Status: partial. Holds if no other variable shares the proxy when the operator gives a new object; otherwise that variable changes too (negation proved).
  * Theorems: `Wrappers.inplace_same_partial`, `Wrappers.inplace_identity`, `Wrappers.other_variable_changes`
* **C261 Decimals are made exactly from triples** — Induction over the digits; case analysis of the three places.
  * Status: proved. Triples with a list in the second place; booleans count as integers.
  * Theorems: `DecimalMake.triple_round_trip`, `DecimalMake.triple_value`, `DecimalMake.triple_accepted`
* **C262 Decimals are made exactly from integers and floats** — `5 ^ k` over `10 ^ k` is one over `2 ^ k`.
  * Status: proved. A float is given by its sign and the ratio of integers of its magnitude.
  * Theorems: `DecimalMake.from_int`, `DecimalMake.from_float`
* **C263 Decimals compare exactly with integers, fractions and floats** — Multiplying both sides by the denominator; the proved comparisons of decimals.
  * Status: proved. With NaNs, the operands stay NaNs, for which the comparisons are proved in the area Decimal (C125). Whether `FloatOperation` is trapped is not modelled.
  * Theorems: `DecimalMake.compare_rational`, `DecimalMake.compare_float`, `DecimalMake.compare_special`
* **C264 Powers modulo an integer are exact** — Powers modulo, by induction over the loop for the exponent of the exponent; parity by the last digit of the integer part.
  * Status: proved. Operands that are NaNs are modelled but no theorem is stated for them.
  * Theorems: `DecimalMake.power_modulo`, `DecimalMake.power_modulo_invalid`
* **C265 A context reads numbers with a single rounding** — The proved reading of texts followed by the proved rounding.
  * Status: proved. The characters that `strip` removes are a parameter.
  * Theorems: `DecimalMake.create_number`, `DecimalMake.create_invalid`
* **C266 Date and time inputs cover exactly what Python can build** — The drawn variables in closed form; for each value explicit draws that make it.
  * Status: partial. Time zones with the largest offsets or without a name, and moments with fold=1, are never tried; the disagreements are proved.
  * Theorems: `DateInputs.dates_made`, `DateInputs.timedeltas_made`, `DateInputs.times_made`, `DateInputs.timezones_made_partial`, `DateInputs.timezones_missed`, `DateInputs.datetimes_made_partial`, `DateInputs.datetimes_missed`
* **C267 Realizing dates and durations is exact** — Bounds of the error of two roundings, less than half a microsecond.
  * Status: proved. Floats are modelled by any rounding with relative error at most 2^-53; the real constructor's treatment of a float of milliseconds follows CPython.
  * Theorems: `DateInputs.dates_made`, `DateInputs.timedelta_realized`
* **C268 `replace` on dates and times changes exactly the given fields** — Case analysis of the arguments, and the proved constructors of dates.
  * Status: partial. None for a field and True for tzinfo are accepted where Python raises TypeError; the disagreements are proved. For times the kind of error is not stated.
  * Theorems: `DateInputs.replace_date_partial`, `DateInputs.replace_date_none`, `DateInputs.replace_time_partial`, `DateInputs.replace_time_none`
* **C269 Dictionaries that do not hash do what dictionaries of Python do, for keys of any class** — Relational specification by identity, hash and equality, shown to leave no choice; induction over the history with the invariant that no key finds another.
  * Status: partial. Assignments and deletions of keys that are not equal to themselves, and keys like a tuple that holds a list, are handled otherwise than in Python; the disagreements are proved. Lookups are right for NaN too.
  * Theorems: `Keys.get_partial`, `Keys.history_partial`, `Keys.python_determined`, `Keys.nan_stored_twice`, `Keys.unhashable_accepted`
* **C270 Dictionaries compare without hashing as they do in Python** — Induction over the items of the other dictionary.
  * Status: partial. For keys and values equal to themselves; the disagreement for NaN is proved.
  * Theorems: `Keys.map_eq_partial`, `Keys.nan_unequal`
* **C271 Symbolic dictionaries see each change for all equal keys** — Algebraic laws of the changes, by transitivity of equality.
  * Status: partial. For keys equal to themselves; the disagreement for NaN is proved. The checks that keys are hashable are left out.
  * Theorems: `Keys.shell_set_partial`, `Keys.shell_del_partial`, `Keys.shell_set_len`, `Keys.shell_nan`
* **C272 Sets that do not hash have the members that sets of Python have** — Induction over the sequence.
  * Status: partial. Membership for elements equal to themselves; the disagreement for NaN is proved. Making sets is right for NaN too.
  * Theorems: `Keys.set_contains_partial`, `Keys.set_made`, `Keys.set_nan_missed`
* **C273 No generated test hides another** — Names end in an underscore and digits, which splits them in only one way; digits are injective.
  * Status: partial. For the tests of one function always; for several functions if no name is that of another with a number. The disagreement for `f` and `f_2` is proved.
  * Theorems: `Cover.names_of_function`, `Cover.names_partial`, `Cover.names_hidden`
* **C274 Generated tests say exactly what was observed** — Induction over the examples; a semantics of tests.
  * Status: proved. Values are compared by their texts, and what a pattern matches is a parameter; the rendering of tests as lines is left out.
  * Theorems: `Cover.tests_in_order`, `Cover.tests_pass`
* **C275 Generated tests import what they use** — Membership of the sets of references and imports, by induction; the last binding of a name.
  * Status: partial. For names in arguments and results, if the same name is not from two modules; the disagreements for such names and for the classes of exceptions are proved. The order of the import statements is left out.
  * Theorems: `Cover.imports_partial`, `Cover.imports_needed`, `Cover.imports_clash`, `Cover.exception_not_imported`
* **C276 `crosshair cover` examines each function of its targets once** — Induction over the steps of the loop over the stack, with a weight that goes down.
  * Status: proved. For the format PYTEST; the messages on the error stream are left out.
  * Theorems: `Cover.functions_found`, `Cover.cover_exit`
* **C277 Floats of the solver are read exactly** — The relation of floats and texts is by sign, exponent and fraction; induction over digits, and fields of a word as sums.
  * Status: proved. The texts are of ASCII digits without underscores, as the solver writes them; the bytes between pack and unpack are left out.
  * Theorems: `Values.float_literal`, `Values.float_literals_all`
* **C278 Real numbers of the solver become the nearest float** — The rounding proved for `Floats`; the triangle inequality over the reals.
  * Status: partial. The nearest float always; the number itself only if it is a float. The disagreements for other numbers and for numbers above all floats are proved. What `approx` guarantees is a hypothesis.
  * Theorems: `Values.rational_nearest`, `Values.rational_exact_partial`, `Values.irrational_near`, `Values.real_rounded`, `Values.real_too_large`
* **C279 Sequences of the solver become lists of their items** — Induction over the chain of joins, with a semantics of terms.
  * Status: partial. For terms that are joined one by one from the right; other shapes, which the solver may not give, are proved to lose items.
  * Theorems: `Values.sequence_items_partial`, `Values.sequence_error`, `Values.sequence_shape`
* **C280 What CrossHair remembers about an object is never given for another object** — An invariant over all steps: keys in the dictionary stay alive, and live objects have different addresses; refinement to a function of objects.
  * Status: proved. A process with a garbage collector that may free any object without references; references between objects are those of the program and of the dictionary.
  * Theorems: `Cells.dictionary_by_identity`, `Cells.dictionary_length`
* **C281 Threads do not see each other's scopes** — A relation between the saved values of each thread and a stack, kept by all acts.
  * Status: proved. Scopes are left in the reverse order in each thread; generators that are suspended in a scope are left out. Values are not None.
  * Theorems: `Cells.scopes_of_threads`
* **C282 Remembered results are those of the first success** — Induction over the calls.
  * Status: proved. Arguments are compared by equality; calls do not overlap.
  * Theorems: `Cells.memo_once`, `Cells.memo_same`
* **C283 Coverage is exactly of what ran** — Induction over the trace; cardinalities of finite sets.
  * Status: proved. That the interpreter reports offsets of instructions is a hypothesis.
  * Theorems: `Cells.coverage_exact`
* **C284 A symbolic list keeps what it takes in, of whatever kind** — A relation between what is inside and the list of items, kept by all operations, with the kinds of the objects inside.
  * Status: partial. All of it for lists; for tuples, texts and ranges all but comparisons, which then say unequal (disagreement). The disagreements for iterators (no length, items only once) and for objects that cannot be indexed are proved. Slices are left out here; they are in C20 and C21.
  * Theorems: `Sources.lists_taken_partial`, `Sources.indexed_taken_partial`, `Sources.equal_sound`, `Sources.tuple_taken_unequal`, `Sources.iterator_taken`, `Sources.bag_taken`
* **C285 Variables for the same symbolic list see the same changes** — A relation between two heaps: the same items for each variable, and the same pairs of variables that share a list; kept by all operations.
  * Status: partial. If `+` is used with lists only, `*` not with 1, and `*=` only on lists with one variable. The disagreements for the other cases are proved. What is inside of lists is only their items here.
  * Theorems: `Aliases.aliases_partial`, `Aliases.imul_new_list`, `Aliases.mul_one_alias`, `Aliases.add_other_kinds`
* **C286 `len`, `hash`, `repr` and `str` of a program's own objects are Python's** — Classes as orders of lookup with methods as functions; the replaced functions against Python's protocol, with the exact condition on what methods return.
  * Status: partial. With the exact condition for agreement, for objects without such attributes of their own and methods that are not static. The disagreements for the other cases are proved.
  * Theorems: `Protocols.len_partial`, `Protocols.len_negative`, `Protocols.len_of_instance`, `Protocols.hash_partial`, `Protocols.hash_raw`, `Protocols.text_partial`, `Protocols.repr_no_text`, `Protocols.static_fails`
* **C287 `isinstance` of a program's own classes is Python's** — Induction over nested tuples; Python's rule with `__instancecheck__` and `__class__` against the rule with `issubclass`.
  * Status: partial. Where `__class__` is the type of the object, and the classes' checks of objects and subclasses agree. The disagreements for the other cases are proved. Symbolic classes are in Verif.Types.
  * Theorems: `Protocols.isinstance_partial`, `Protocols.claims_ignored`, `Protocols.instance_check_ignored`
* **C288 `sorted` takes a program's own iterable objects** — The protocol of iteration with the number of calls.
  * Status: partial. For classes with `__iter__`, which is called twice. Objects that are only read by index are a disagreement.
  * Theorems: `Protocols.sorted_partial`, `Protocols.sorted_by_index`
* **C289 Attributes set by name are read back by name** — A store of attributes; the read after the write.
  * Status: partial. For `setattr` with names that are not symbolic; symbolic names are a disagreement. Descriptors and slots are left out.
  * Theorems: `Protocols.attributes_partial`, `Protocols.set_then_get`, `Protocols.setattr_symbolic`
* **C290 Symbolic values leave operations they do not know to the other operand** — A table of what the methods of each kind of symbolic value reply to a foreign object, run through the interpreter's rule for binary operations and compared with Python's rule.
  * Status: partial. In full with the foreign object on the left, and for objects that define nothing for the operation. With the symbolic value on the left, the exact condition is proved, and the disagreements for the kinds that do not ask the other operand.
  * Theorems: `Reflected.foreign_left`, `Reflected.symbolic_left_partial`, `Reflected.deferring`, `Reflected.plain_objects`, `Reflected.equal_to_all_is_not`, `Reflected.change_hides_method`, `Reflected.order_not_asked`, `Reflected.radd_not_asked`
* **C291 A TypedDict is accepted for another one only if its values can be used as such** — Unification of classes, type variables and TypedDicts with the chain of maps for bindings; by induction over the depth, acceptance implies that made values are usable, which are inductive predicates on values.
  * Status: partial. For types without type variables at any depth; a type variable as the type of a field is bound. Type variables in TypedDicts inside TypedDicts are lost (disagreements), so that inconsistent uses are accepted; and some types are refused, or are exceptions, that should be accepted.
  * Theorems: `TypedDicts.accepted_partial`, `TypedDicts.binds_field`, `TypedDicts.disagreement_nested_not_bound`, `TypedDicts.disagreement_inconsistent`, `TypedDicts.disagreement_refused`
* **C292 Methods of built-in classes take symbolic objects and arguments like others** — The three wrappers as decisions over the class of the object, whether it is symbolic, and where symbolic values are among the arguments (trees of tuples), compared with Python's rule for methods of a class.
  * Status: partial. Exact conditions for the wrappers, given that the symbolic methods do what Python's do (other properties). Disagreements: symbolic values in tuples, as in text.endswith((symbolic, ...)), symbolic bools for methods of int called through the class, and objects of other classes with symbolic arguments.
  * Theorems: `Unbound.realized_args`, `Unbound.checked_self_partial`, `Unbound.symbolic_self`, `Unbound.disagreement_subclass`, `Unbound.disagreement_tuple`, `Unbound.disagreement_none`
* **C293 Formatting objects of a program's own classes does what Python does** — States of objects and their copies, with methods as arbitrary functions of the state; fields in turn, by induction, for Python and for the three implementations.
  * Status: partial. The exact condition for format; templates for methods that do not change the object and return texts; % gives Python's text always. Disagreements: changes to objects are lost as methods are called on copies, so that templates can give other texts, and format returns objects that are no texts.
  * Theorems: `Formatting.format_iff`, `Formatting.strFormat_partial`, `Formatting.percent_texts`, `Formatting.changes_are_lost`, `Formatting.template_text_differs`, `Formatting.returns_other`
* **C294 Arrays of C integers hold and refuse what Python's do** — Arrays as lists of items with the bounds of the code, one operation at a time against Python's arrays of C values, by induction over programs of operations.
  * Status: partial. For type codes b B h H q Q and items in range where the code does not check; integers that are checked are never accepted out of range, for all codes. Disagreements: bounds too narrow for i I l L, unchecked assignment and insert, floats, extend with an exception, and equality after tobytes.
  * Theorems: `TypedArrays.make_partial`, `TypedArrays.run_partial`, `TypedArrays.program_partial`, `TypedArrays.accepted_in_range`, `TypedArrays.input_valid`, `TypedArrays.eq_partial`, `TypedArrays.narrow_codes`, `TypedArrays.assignment_unchecked`, `TypedArrays.floats_taken`, `TypedArrays.extend_prefix`, `TypedArrays.tobytes_changes_eq`
* **C295 defaultdict inputs call their factory only where Python's do** — The methods of the class together with those it inherits from the abstract base classes, each in terms of d[k]; against Python's, operation by operation and by induction over programs.
  * Status: partial. For programs without popitem if there is no factory, and of d[k], d[k] = v, del d[k] and len with any factory; other operations for keys that are there. Disagreements: with a factory, in, get, pop and setdefault call it for keys that are not there; popitem takes the first entry.
  * Theorems: `DefaultDicts.step_partial`, `DefaultDicts.no_factory_partial`, `DefaultDicts.items_partial`, `DefaultDicts.contains_adds`, `DefaultDicts.defaults_not_used`, `DefaultDicts.popitem_partial`, `DefaultDicts.popitem_first`
* **C296 math.gcd takes what Python's takes** — The call by the number and kinds of the arguments, on top of the loop on integers that is proved to give the greatest common divisor; Python's rule is a relation with divisibility.
  * Status: partial. For up to two arguments that are no floats and no false objects. Disagreements: three or more integers are refused; floats, and None as a second argument, are taken.
  * Theorems: `Gcds.gcd_partial`, `Gcds.python_unique`, `Gcds.three_refused`, `Gcds.floats_taken`, `Gcds.none_taken`
* **C297 Counterexamples with skipped functions show what these returned** — Programs as sequences of calls, changes and looks; values by function in the order of calls; by induction over the program, what is given by function comes back in the order of calls.
  * Status: partial. For programs that do not change returned lists. In general the replay is exactly an execution in which calls return the lists as they were at the end, so that changes are seen twice (disagreement); copies made when the functions return would suffice.
  * Theorems: `Replays.replay_is_final`, `Replays.reproduced_partial`, `Replays.early_copies_suffice`, `Replays.changed_twice`
* **C298 eval looks names up where Python does** — Dictionaries in a heap by identity; evaluation by recursion on expressions; Python's choice of the two dictionaries apart from CrossHair's; by induction on expressions where the two choices differ.
  * Status: partial. If locals are given or globals are not; and with only globals, for expressions without assignments whose names are not local to the caller. Otherwise, with only globals, the caller's locals hide the globals and take the assignments (disagreement).
  * Theorems: `Evals.eval_partial`, `Evals.globals_only_partial`, `Evals.caller_hides`, `Evals.assignment_elsewhere`
* **C299 get of ordinary dictionaries does what Python's does** — Keys with identity, hash and an arbitrary equality; Python's get as a relation that leaves the order of the search open; by induction over the entries, the linear search is one of its outcomes, and the only one if at most one entry is found.
  * Status: partial. For the default by position, dictionaries whose items lists the entries, and keys with the hashes of the keys they equal. Otherwise keyword defaults are taken, overridden items lose entries and hashes are ignored (disagreements).
  * Theorems: `DictGets.get_partial`, `DictGets.get_unique_partial`, `DictGets.keyword_taken`, `DictGets.items_overridden`, `DictGets.hashes_ignored`
* **C300 Extra plugins run as Python modules do** — Plugins as sequences of assignments, definitions and calls; exec in a function with its locals apart from the globals, a module with one scope; by induction over the statements, with an invariant about the names that functions use.
  * Status: partial. For plugins whose functions use no names that the plugins set and that share no names with main.py. Other functions raise NameError, or see the names of main.py (disagreements).
  * Theorems: `Plugins.plugin_partial`, `Plugins.own_names_unseen`, `Plugins.names_of_main`
* **C301 Verbose messages show the lines around the problem** — Files as lists of lines; the loop over the range of line numbers refines a specification by line numbers, by induction over the range.
  * Status: proved. Headings and colors are left out; linecache is modelled as the lines of the file.
  * Theorems: `SourceContext.context_correct`, `SourceContext.marked_iff`
* **C302 Ctrl-C ends crosshair watch cleanly** — The try block as a sequence of steps with an interrupt after any of them; by induction over the steps, the watcher stays set.
  * Status: partial. For one interrupt after the watcher has been made and workers that have started their processes. Earlier interrupts end with UnboundLocalError, and second ones leave workers (disagreements).
  * Theorems: `Interrupts.interrupt_partial`, `Interrupts.early_interrupt`, `Interrupts.second_interrupt`

## Where the code differs from the property

Each is a theorem with a concrete witness.

* `Search.cap_does_not_prevent_confirmed` — The cap on the root result is forgotten: it is applied to the root's stored analysis (statespace.py:1342-1346) which the next iteration recomputes, so a program one of whose paths asked for UNKNOWN is still reported CONFIRMED. (The source has a TODO about this at 1316.)
* `Search.different_realization_undetected` — C07 is not true of realized values: a program that realizes one expression in the first iteration and a different one in the second, at the same point, goes unnoticed (statespace.py:1078-1094 does not compare the expression with the recorded one), and is given the recorded value although its own expression need not have that value.
* `Search.early_end_undetected` — A program that ends where it asked a question before also goes unnoticed: the recorded node is simply overwritten as finished.
* `Search.parallel_ignored_hides_refuted` — A strategy all of whose paths were ignored also finishes the node, and hides a counterexample the other strategy has already found (statespace.py:558-565 asks `status != UNKNOWN`, which `None` satisfies).
* `Search.preUnsat_after_timeout` — "Unable to meet precondition" is also reported when the only path tried timed out before returning: the paths that raise do not touch the bookkeeping (core.py:1292-1333), so the message does not mean that preconditions were found to fail.
* `Ints.to_bytes_zero_length_signed` — Disagreement: CPython accepts `(0).to_bytes(0, "big", signed=True)`, the model raises.
* `Ints.to_bytes_unknown_order` — Disagreement: an unknown byte order is accepted (CPython raises `ValueError`).
* `Ints.parse_drops_base` — Disagreement: text with a digit outside the base is read in base ten. CPython raises `ValueError` for `int("12", 2)`; here the answer is whatever `int("12")` gives, namely twelve.
* `Chars.longer_comparison_breaks_index` — **Disagreement.** A string of two characters, compared with a string of five and then indexed at zero: afterwards position `-1` is variable 3, beyond the end, and position 2 is no error.
* `Chars.longer_comparison_breaks_slice` — **Disagreement.** After the same history a slice that needs the length ends in an internal error.
* `Chars.backward_slice_wrong` — **Disagreement.** Slicing backwards with bounds from the front: `s[5:2:-1]` of a six-character string is empty, instead of its characters 5, 4, 3; and `s[:2:-1]` likewise.
* `Strs.find_low_start` — `"abc".find("b", -10)` is 1 in Python; the symbolic string answers -6.
* `Strs.find_low_end` — `"abc".find("a", 0, -4)` is -1 in Python; the symbolic string answers 0.
* `Strs.count_empty_past_end` — `"a".count("", 2)` is 0 in Python (there is no position in the window); the answer is 1.
* `Strs.splitWs_strips` — `" a b ".split(None, 1)` is `["a", "b "]` in Python; the trailing space is lost.
* `Strs.rsplitWs_strips` — `" a b ".rsplit(None, 1)` is `[" a", "b"]` in Python; the leading space is lost.
* `Strs.expandtabs_fixed` — `"a\tb".expandtabs(4)` is `"a b"` in Python; the symbolic string gives four spaces.
* `Maps.copy_wrong_length` — ... but not the length: a copy of a dict from which an item was removed still reports it, and a copy of `{}` with one item added is "empty", so that `pop` of that item raises.
* `Maps.ror_swapped` — `other | d` is computed as `d | other`: with a key on both sides the wrong value wins. In Python `{1: 10} | {1: 20}` is `{1: 20}`.
* `Maps.overwrite_moves_key` — Overwriting a key moves it to the end of the iteration order; in Python it keeps its place.
* `Maps.reversed_repeats` — `reversed(d)` lists an overwritten key twice.
* `Sets.difference_aliases` — `a - b` keeps a reference to `b`: adding to `b` afterwards removes the element from the difference. In Python `len(c)` stays 2.
* `Sets.difference_not_python` — So the specification fails for that history.
* `Sets.self_reference` — `a |= (b - a)`: the set refers to itself, and looking at it exhausts the stack.
* `Sets.union_aliases` — `s.union()` without arguments is `s` itself, not a copy: adding to the result adds to `s`.
* `Dates.time_compare_drops_seconds` — **C66, disagreement.** Seconds of an offset are dropped when times are compared, so the later one can be the one that is earlier in UTC.
* `Wall.unblock_can_block` — **C67, disagreement.** Unblocking one directory for `os.listdir` blocks every other one.
* `Wall.reject_rule_can_allow` — **C67, disagreement.** A reject rule with arguments opens the rest of an event that was blocked.
* `Wall.advice_fails` — **C68, disagreement.** For arguments with a colon the advice does not help.
* `Wall.enabled_before_engage` — **C34, disagreement.** In a process that has not engaged the wall, an enabled scope leaves it switched off for good: engaging it afterwards does not stop anything, and opening it is an assertion failure.
* `Wall.late_rules_ignored` — **C34, disagreement.** Rules given to a wall that is engaged already do not reach events it has seen.
* `Hex.hexSep_misplaced` — **C30, disagreement.** Five bytes in groups of three from the right should be a group of two and a group of three; CrossHair makes groups of one, three and one.
* `B64.strict_accepts_excess_padding` — **C31, disagreement.** Strict decoding accepts padding that completes nothing: "=" alone, and "YWJj=" (RFC 4648 padding is there to complete the last group of four; binascii refuses both in strict mode).
* `B64.data_after_padding_refused` — **C31, disagreement.** Without strict mode binascii stops at the padding, so "YQ==YQ==" decodes to "a"; CrossHair raises.
* `Pack.native_order_wrong` — **C32, disagreement.** On a little-endian machine, "=H" and "H" must give the low byte first; CrossHair packs the high byte first.
* `Pack.unpack_accepts_long_buffer` — **C32, disagreement.** `unpack` must refuse a buffer longer than the format; CrossHair ignores the rest.
* `Pack.bool_and_char_arguments` — **C32, disagreement.** `pack('?', v)` must pack the truth of `v`; CrossHair packs the number, and raises `OverflowError` from 256 on. `pack('c', 65)` must be refused; CrossHair packs the byte.
* `Pack.empty_format_refused` — **C32, disagreement.** The empty format is valid and packs nothing; CrossHair raises.
* `Pack.packInto_grows` — **C32, disagreement.** Packing past the end of a buffer must be refused, and a negative offset counts from the end; CrossHair lengthens the buffer in both cases.
* `Pack.iterUnpack_endless` — **C32, disagreement.** With a format of size 0 (such as "0h"), iteration must be refused; CrossHair never ends.
* `Pack.iterUnpack_leftover` — **C32, disagreement.** A buffer that is not a multiple of the size must be refused; CrossHair ignores the rest.
* `Opts.split_negative_iterations` — C36 fails in general: with the default number of iterations, which is not a floating point number, and priority one, the second stage gets -1 iterations.
* `Opts.split_zero_priority` — C36 fails at the ends: an absent timeout (infinity) becomes "not a number" for a stage with priority zero.
* `Watch.listed_twice_always_changed` — C12 fails if a file is listed twice, as it is when a directory and a file in it are watched: an unchanged file counts as changed, in every check.
* `Watch.terminate_leaves_starting` — C13 fails for workers that have not created their process yet: termination leaves them, and they go on to run.
* `Watch.no_processes_never_finishes` — C13 fails on a machine with one processor, where the pool is created for no processes: once an item is submitted, the pool is forever working on it, without any result, unless it is terminated.
* `Watch.no_restart_without_rewriting` — C71 fails on terminals that cannot rewrite lines: a change does not restart the analysis, so messages about the old files stay on display, and the new message on that line is not shown.
* `Pick.diff_without_coverage_ignored` — C49: a difference that executed no instruction of either function is not reported, and the functions count as the same.
* `Pick.ties_prefer_longer` — C49: among equally covering differences the longer one is reported, although the documentation of the scorer says ties are broken on smaller examples.
* `Contract.second_base_dropped` — With several bases, only the leftmost one that has conditions for the method counts: the postconditions that another base promises are dropped.
* `Contract.diamond_takes_wrong_function` — In a diamond, the function taken for the method is the one that the leftmost base inherits, although Python's resolution order would find the override of the other base (function 2) first: `class A: f`, `class B(A)`, `class C(A): f`, `class D(B, C)`.
* `Contract.own_precondition_drops_inherited_invariants` — The restriction is needed: a method that declares a precondition of its own may no longer assume the invariants of the superclasses, although it still has to establish them.
* `Contract.new_method_skips_inherited_invariants` — A public method that is new in a subclass is not checked against the invariants of the superclasses at all.
* `Contract.second_syntax_invariants_ignored` — The first parser that finds any condition decides which invariants count, and every parser finds the conditions of methods whatever syntax they use: when a class states its invariant in the second parser's syntax and has a contract on any method, the invariant is ignored.
* `Doc.other_docstrings_ignored` — Conditions in a docstring with single quotation marks, or with a prefix other than `r`, are not seen.
* `Doc.other_quotes_cut_docstring` — Triple quotes of the other kind at the end of a line cut the docstring short: the condition on line 5 of this docstring is lost.
* `Enforce.unknown_mutable_argument_blames_postcondition` — A name in `post[...]` that is no parameter makes every call fail, as a failure of the postcondition, before the function is called.
* `Enforce.user_file_named_copy` — ... but the list is of file names: calls from a user's own `copy.py`, `enum.py` or `inspect.py` are never guarded.
* `Enforce.lambda_not_guarded` — Lambdas, and whatever else has a name ending in `>`, are never guarded.
* `Enforce.metaclass_call_bypassed` — A metaclass's own `__call__` is bypassed: a class whose metaclass hands out one shared object gives a new one.
* `Attempt.raising_postcondition_confirms` — The exceptions a contract allows for the function are allowed for its postcondition as well: a postcondition that raises one counts as confirmed, although it was not true.
* `Attempt.raising_precondition_confirms` — ... and for its preconditions: arguments on which a precondition raises count as a confirmed path.
* `Attempt.allowed_exception_hides_nondeterminism` — With `raises: Exception` even CrossHair's own report of nondeterminism counts as confirmed.
* `Attempt.comparison_exception_escapes` — An exception while an argument is compared with its original ends the whole analysis.
* `Deque.maxlen_exceeded` — Disagreement: `extend`, `extendleft`, `insert` and `*` do not look at `maxlen`. A deque of at most two elements can be made to hold three, where Python lets elements fall off, or raises `IndexError` on `insert`.
* `Deque.append_to_zero` — Disagreement: adding to a deque with `maxlen=0` raises `IndexError`, where Python discards the element.
* `TextIO.read_negative` — Disagreement: `read(-1)` does not read everything; it leaves out the last character.
* `TextIO.readline_limit_absolute` — Disagreement: the limit of `readline` is taken as a position instead of a number of characters, so that a second `readline(2)` gives nothing, and a third one goes on to do so.
* `TextIO.readline_negative` — Disagreement: `readline(-1)` does not mean "no limit", and moves the position before the start.
* `TextIO.readline_beyond_end` — Disagreement: `readline()` beyond the end of the text moves the position back to the end.
* `TextIO.truncate_negative` — Disagreement: `truncate(-1)` does not raise `ValueError`; it drops the last character.
* `TextIO.getvalue_after_close` — Disagreement: `getvalue` still works after `close`, where Python raises `ValueError`.
* `Clock.negative_sleep_turns_back` — Disagreement: `sleep` accepts negative amounts (Python raises `ValueError`), and then the monotonic clock may run backwards.
* `Rand.replay_out_of_range` — Disagreement: a copy that asks for smaller numbers may be given a number that is too large.
* `Rand.replay_random_one` — Disagreement: a copy that asks for `random()` where the original asked for an integer may be given 1.0.
* `Rand.reseeding_does_not_replay` — Disagreement: seeding has no effect, so that a generator seeded twice with the same number goes on with new values instead of starting over.
* `Rand.randrange_negative_step` — Disagreement: with a negative step the precondition of `randrange` can hold, but no value satisfies the postcondition, although Python's range has members. Such calls end every path.
* `Builtin.all_overdraws` — Disagreement: after a symbolic item that is false, `all` still draws further items from the iterator; if the iterator then raises, the exception is reported although Python would have returned False.
* `Builtin.any_overdraws` — Disagreement: after a symbolic item that is true, `any` still draws further items from the iterator.
* `Builtin.all_asks_symbolic` — Disagreement: a symbolic value that is not a boolean is asked for its truth even after a symbolic item that is false.
* `Builtin.dict_order` — Disagreement: when a key is given twice, the items of the dict come in another order than in Python, where each key keeps the position of its first pair.
* `Builtin.dict_unhashable` — Disagreement: a key that cannot be hashed raises `ValueError`; Python raises `TypeError`.
* `Builtin.dict_nan` — Disagreement: with the same NaN given twice as key, the dict has two items; Python's has one.
* `Builtin.listIndex_start` — Disagreement: `[5, 6, 7].index(7, 1)` is 1 under analysis; in Python it is 2.
* `Builtin.join_error_order` — Disagreement: if the iterable raises after an item that is not a text, `join` reports the item; Python, which exhausts the iterable first, reports the exception of the iterable.
* `Builtin.tupleRepr_one` — Disagreement: the `repr` of a tuple with one item lacks the comma: `repr((1,))` is `"(1)"`.
* `Scope.pureImports_exception` — Disagreement: after an exception, `prefer_pure_python_imports` leaves the hooks wrapped.
* `Scope.noTracing_generatorExit` — Disagreement: `GeneratorExit` that passes through `NoTracing` leaves tracing off (which is on purpose, since a generator may be closed anywhere, but then tracing stays off within the scopes around).
* `Scope.pushed_twice` — Disagreement: a module that is pushed again while it is in force is not called any more after the inner scope, although it is still listed.
* `Scope.tracer_twice` — Disagreement: a tracer that is entered while another one is active raises `ValueError` with its patching module pushed.
* `Scope.enforcing_twice` — Disagreement: a function enforced within itself is not marked as enforced after the inner scope, and the outer scope ends with `KeyError`.
* `Scope.patch_same_code` — Disagreement: two patches of a function with the same code object, one within the other. The layer below the outer one is overwritten, so inside the outer patch calls itself, and the outer scope ends with `KeyError` and its patch in force.
* `Scope.patched_without_opcodes` — Disagreement: `Patched` without opcode patches fails, with its patches in force.
* `Outcome.iterators_same_type` — Disagreement: two iterators of one type, such as two generators, are found equal whatever they yield: the test for types that compare by identity comes first.
* `Outcome.set_nan` — Disagreement: sets with different NaN objects are found different.
* `Outcome.dict_nan` — Disagreement: dicts with different NaN objects as keys are found different.
* `Outcome.unrealizable_asymmetric` — Disagreement: with a value that could not be realized the comparison is not symmetric, since that value is also equal to a missing one.
* `Outcome.ignored_compared` — Disagreement: an attempt that has to be ignored counts as an exception: a difference is reported if only one of the functions ends so, and agreement if both do.
* `Outcome.objects_same_type` — Disagreement: two objects of one type that compares by identity are found equal, though they are different; those of different types are found different.
* `Copy.realize_method` — Disagreement: the object that a bound method is bound to is copied by the standard library, so a realized copy of `[x.method, x]` has symbolic values, in both items.
* `Copy.method_internal` — Disagreement: a copy that should be made as well as possible, of `[x.method, x]` where `x` has an object that cannot be taken apart, ends in an internal error: the copy of `x` was entered into the memo, but `x` was not kept.
* `Copy.set_cycle` — Disagreement: the copy of a set that can be reached from one of its items has not itself there, but another set, as with the standard library.
* `Unify.list_for_tuple` — Disagreement: a list is accepted for a tuple of any length: a tuple is a sequence, and so lists and tuples are exchanged (dynamic_typing.py:164-171, the value type is compared with `Sequence`, as the receiver's stand-in).
* `Unify.string_for_tuple` — Disagreement: strings are accepted for `tuple`.
* `Unify.union_forgotten` — Disagreement: what variables are bound to within a union of value types is forgotten (dynamic_typing.py:103-111, "Right now, we just discard the bindings here"): keys that are integers or strings and values that are booleans are accepted for a dictionary with keys and values of one type, which is said to be `bool`.
* `Unify.long_for_pair` — Disagreement: a tuple of any length is accepted for a pair.
* `Unify.pair_for_long_crash` — Disagreement: the unifier raises an exception (`issubclass(object, ...)`) for a pair of values of different types as value of a tuple of objects, of any length.
* `Unify.empty_crash` — Disagreement: the unifier raises an exception (`args[-1]`) if the type of the empty tuple does not unify as a sequence of objects.
* `Unify.object_refused` — Disagreement: the unifier does not accept every type for `object`: a class with arguments is refused, because the numbers of arguments differ (dynamic_typing.py:202-206).
* `Unify.endless` — Disagreement: with variables on both sides the unifier may never end: a dictionary with lists as keys, for a dictionary with keys and values of one type.
* `Json.halves_joined` — Disagreement: C56 with `ensure_ascii`, the default: a string of the two halves of a surrogate pair comes back as one character. (CPython's `json` does the same.)
* `Json.sign_accepted` — Disagreement: C80. `"\u+123"` is no JSON, but is read. (CPython's `json` refuses it.)
* `Json.space_accepted` — Disagreement: C80. `"\u 123"` is no JSON, but is read.
* `Json.underscore_accepted` — Disagreement: C80. `"\u1_23"` is no JSON, but is read.
* `Names.missing_module_importError` — Disagreement: C52 (and the documentation of `load_by_qualname`, "raises: NotFound"). When not even the first part is a module, `NotFound` is turned into `ErrorDuringImport`.
* `Names.inherited_refused` — Disagreement: C52. A method that a class inherits is an attribute of it, but is not found.
* `Names.inside_other` — Disagreement: C52. A name inside something that is neither module nor class is no reported error but an `AttributeError`.
* `Names.notFound_traceback` — Disagreement: C52. If a name is not found in its module, there is no message and exit code 2, but an exception that nobody catches (Python then exits with code 1, the code for counterexamples).
* `Names.line_behind` — Disagreement: C82. With a function in lines 1 and 2 and another in lines 3 and 4, line 3 gives the first.
* `Names.inherited_keyError` — Disagreement: C82. If a class that comes first in the alphabet inherits a method, there is a `KeyError` for the lines of the method.
* `Names.root_package` — Disagreement: C83. With an `__init__.py` in the root directory the search for the top package does not end.
* `Mask.dot_matches_all` — Disagreement: with `re.IGNORECASE`, an escaped full stop matches every character of those looked at but the line feed: the character is made into a regular expression without escaping it (relib.py:127). In Python, `re.match(r"\.", "a", re.I)` is `None`.
* `Mask.escaped_fails` — Disagreement: with `re.IGNORECASE`, the regular expressions `\*` and `\^` end in an exception.
* `Mask.letter_without_case` — Disagreement: with `re.IGNORECASE`, a letter without case, such as `ª`, does not match itself: the characters of the category "Lo" are not looked at (relib.py:112).
* `Mask.ascii_literal` — Disagreement: with `re.IGNORECASE` and `re.ASCII`, a letter that is not in ASCII does not match itself.
* `Mask.ascii_range` — Disagreement: with `re.IGNORECASE` and `re.ASCII`, `[a-f]` does not match `B`: the bounds are not in order when they are intersected with those of ASCII.
* `Mask.mixed_range` — Disagreement: with `re.IGNORECASE`, `[Z-a]` matches nothing, not even `Z`.
* `Regex.repetition_final` — Disagreement: `(?:a|ab)?c` and `(?:a|ab)+c` (which `sre_parse` makes `a(?:|b)`) do not match "abc", since the first choice in a repetition is final.
* `Regex.empty_repetition_endless` — Disagreement: `(?:a*)*` does not end, on any string in which no `a` is at the position.
* `Regex.dollar_newline` — Disagreement: `$` does not match in front of a line feed at the end ("a$" on "a\n").
* `Regex.boundary_at_start` — Disagreement: `\b` matches in front of a space at the beginning, and `\B` does not.
* `Regex.caret_empty` — Disagreement: with MULTILINE, `^a` on the empty string raises an `IndexError`.
* `Regex.behind_at_start` — Disagreement: `(?<!a)b` does not match "b", since there is no room for the `a`.
* `Regex.ahead_groups_lost` — Disagreement: groups inside of a look-ahead are lost (`(?=(a))` on "a").
* `Regex.search_end` — Disagreement: a match at the very end is not found (`$` in "a", `a*` in "").
* `Regex.negative_position` — Disagreement: a negative position counts from the end of the string, where Python's `re` takes it to be zero.
* `Regex.split_end` — Disagreement: `b|\Z` splits "ab" into two parts; Python finds the end as well, and makes three parts.
* `Regex.sub_empty` — Disagreement: where the match is empty, the next character is dropped: `re.sub('x*', '-', 'abc')` is "---", not "-a-b-c-".
* `Regex.sub_anchor` — Disagreement: what follows a match is taken for the beginning of a string: `re.sub('^a', '', 'aaa')` is "", not "aa".
* `Regex.sub_negative` — Disagreement: with a negative count everything is replaced, where Python replaces nothing.
* `Types.lowering_loses` — Disagreement: a symbolic type below class 3 can turn out to be class 5; but not after it was asked (with the answer yes) whether it is below class 4, although it is: the cap was lowered, and class 5 is no subclass of it that is known. So the path is given up.
* `Types.hidden_by_base` — Disagreement: a class whose only base may not be used (it has `__reduce__`, say) is never chosen for an argument, although it is a subclass of the annotated class and may be used itself.
* `Sigs.covers_not_each` — Disagreement: the intersection of `f1(x)` and `f2()` does not accept `(x=1)`, which the first one accepts, although "it should cover all the inputs for each original signature".
* `Sigs.two_args_fail` — Disagreement: the intersection of two signatures with `*args` cannot be made (`ValueError`) if there is anything that may be given by keyword: here for `f1(x, *args)` and `f2(x, *args)`.
* `Sigs.default_order_fails` — Disagreement: the intersection of `f1(a=1, /, **kw)` and `f2(b, c, /)` cannot be made: the parameter without a default comes last.
* `Sigs.name_clash` — Disagreement: the intersection of `f1(a, /, **kw)` and `f2(*args, a)` does not accept `(1, a=2)`, which both of them accept: there is one parameter of each name.
* `Sigs.constructor_drops` — Disagreement: for `__new__(cls, x)` and `__init__(self, x)` the signature of the constructor has no parameters: the objects are left out already because they are not called the same, and then the first parameter is left out. So no object can be made.
* `Sigs.constructor_fails` — Disagreement: for `__new__(cls, *args, **kwargs)` and `__init__(self, *args, **kwargs)` there is no signature: `ValueError`.
* `Sigs.constructor_self` — Disagreement: for `__new__(cls, **kwargs)` and `__init__(self, x, **kwargs)` the object is a parameter still. A call with it is accepted by the signature of the constructor, and not by `__init__`.
* `Skip.equal_not_same` — **C95, disagreement.** Assumed and real results are compared with `==`. When the assumed `-0.0` is compared with the real `0.0`, a counterexample is reported (here that the sign is that of `-0.0`) that does not happen.
* `Skip.raising_crashes` — **C95, disagreement.** When a skipped function raises where its assumed result is checked, the exception ends the whole check, although the code handles that exception and never breaks its postcondition.
* `Skip.exceptions_missed` — **C96, disagreement.** Exceptions are no part of what is assumed of a skipped call: code whose only failure is in its handler for an exception of the function is confirmed whenever that call is skipped.
* `Skip.keyword_wrong` — **C98, disagreement.** `find_best_sig` is given the names of keyword arguments as arguments: for `f(x=5)` with signatures for `str` and for `int`, that for `str` is found.
* `Skip.other_arity_raises` — **C98, disagreement.** A signature with another number of parameters raises `TypeError`, although a later signature fits.
* `Skip.values_shift` — **C99, disagreement.** The values of calls in preconditions come first among those that are shown. A precondition that calls the function gets `0`, then the body gets `9` and fails; but with the values `0, 9` the body gets `0`, and does not.
* `Codec.surrogates_encoded` — **C100, disagreement.** A surrogate is encoded (with the handler "strict"), where Python raises `UnicodeEncodeError`: what comes out is not well-formed.
* `Codec.surrogates_decoded` — **C101, disagreement.** Bytes that encode a surrogate are decoded, where Python raises `UnicodeDecodeError`; no well-formed sequence begins there.
* `Codec.error_end` — **C101, disagreement.** For the first two bytes of a sequence of three, Python's error ends after both ("can't decode bytes in position 0-1"); here it ends after one.
* `Codec.replace_doubles` — **C102, disagreement.** With "replace", a truncated sequence of two bytes gives two replacement characters, where Python gives one.
* `Codec.surrogates_not_ignored` — **C102, disagreement.** Also without raising, encoded surrogates are decoded, where Python has three errors.
* `Codec.encode_error_end` — **C103, disagreement.** Python's error of encoding covers the whole run of characters that cannot be encoded ("can't encode characters in position 1-2"); here it is the first one only.
* `Codec.one_at_a_time` — **C104, disagreement.** The incremental decoder of UTF-8 gives one character for each call, and leaves the rest in its buffer, even at the end.
* `Codec.nothing_crashes` — **C104, disagreement.** With nothing to decode (as at the end of a file), the incremental decoder of UTF-8 raises `IndexError`.
* `Codec.errors_swallowed` — **C104, disagreement.** A truncated sequence at the end raises no error, nor does a wrong byte before the end.
* `Arrays.tuple_step_dropped` — Disagreement: the step of a slice is dropped. `t[::-1]` and `t[::2]` are `t`, and `t[::0]` does not raise `ValueError`, on any tuple.
* `Arrays.tuple_not_reversed` — Disagreement: so the reversed tuple is not reversed.
* `Arrays.tuple_eq_beyond_end` — Disagreement: symbolic tuples with the same elements can be found different, because the whole arrays are compared, and these differ beyond the end. Here is such a pair for every tuple.
* `Heap.two_types_two_objects` — Disagreement: a reference that was looked up as one type and then as another that does not unify with the first gives a second object (find_key_in_heap, statespace.py:1144-1146): `a is b` is false although the solver takes the references to be equal. (C109 asks for one object for one reference.)
* `Heap.original_shares` — Disagreement: the original of an argument and the copy of it that is given to the function use the same heap: `attempt_call` (core.py:1524-1529) makes the arguments (snapshot -1), then a checkpoint, and then the copies (whose snapshot is the number of that last heap). So `__old__`, the counterexample shown and the test whether an argument was changed see the objects that the function has changed.
* `Heap.old_value_changed` — Disagreement: so the function changes an object that it got from its copy of an argument from 10 to 20, and the original argument has 20 there.
* `Heap.first_old_lookup_live` — Disagreement: an object that is first looked up through an older snapshot is the one that the newest heap gets, not the copy kept for that snapshot (find_key_in_heap returns `ret`, which `add_value_to_heaps` puts in the last heap only): looked up again, it is another one.
* `Match.group_negative` — Disagreement: a negative number gives a group counted from the end; Python raises `IndexError`.
* `Match.group_unknown_name` — Disagreement: an unknown name raises `KeyError`; Python raises `IndexError`.
* `Match.start_unmatched` — Disagreement: `start` and `end` raise `TypeError` for every group that did not take part (Python: -1), and `span` gives `None` (Python: `(-1, -1)`).
* `Match.start_name` — Disagreement: `start`, `end` and `span` take no names: they raise `TypeError` for all of them.
* `Match.groupdict_spans` — Disagreement: `groupdict` gives positions instead of text, and leaves out the groups that did not take part.
* `Match.lastindex_none` — Disagreement: `lastindex` is 0 where no group took part; Python has `None`.
* `Match.lastindex_nested` — Disagreement: for nested groups, `((a))` on "a", `lastindex` is 2; Python has 1, the group closed last.
* `Match.lastgroup_other` — Disagreement: `lastgroup` is the name of the last group with a name, though `lastindex` is of a group without one (Python: `None`), as for `(?P<x>a)(b)` on "ab".
* `Match.expand_unmatched` — Disagreement: a reference to a group that did not take part raises `TypeError`; Python puts nothing.
* `Match.expand_newline` — Disagreement: with a line feed anywhere in the template, no references are replaced: `"\\2\n"`.
* `Match.expand_escapes` — Disagreement: escapes are left alone (`\n` should become a line feed), and an escaped backslash in front of a digit is taken for a reference: `\\2` (three characters) becomes a backslash and group 2 instead of `\2`.
* `Match.expand_octal` — Disagreement: `\201` is group 20 and "1"; in Python three octal digits are a character. Here there is no group 20.
* `Kinds.implies_keywords_dropped` — Disagreement: keyword arguments of `implies` are dropped without notice, where a call of a function with two parameters raises `TypeError`.
* `Kinds.asserts_last` — Disagreement: if there is nothing but assertions, the last one is not taken for a precondition: its line is the first of the body.
* `Kinds.asserts_recursion_hidden` — Disagreement: a function that calls itself in its body (line 3) with arguments that its own leading assertion (line 2) refuses is passed over, since the innermost frame counts.
* `Kinds.asserts_same_name_hidden` — Disagreement: so is a method (line 13) that calls the method of the same name of a class above in the same file, in which an assertion (line 5, not a leading one) fails.
* `Kinds.deal_keyword_only` — Disagreement: keyword-only arguments are given twice, by position as well, so that the call of the contract always fails.
* `Kinds.deal_varargs` — Disagreement: further positional arguments (`*args`) are given as one tuple, so that the contract gets a tuple in a tuple.
* `Kinds.registered_optional` — Disagreement: a condition with an optional parameter that the function lacks is accepted, but fails with `KeyError` whenever it is evaluated: `lookupArgs` looks all parameters up, and only those without default were verified.
* `Ops.index_float` — Disagreement: a symbolic float that is whole indexes a list too, where Python raises `TypeError`; one that is not raises `IndexError`.
* `Ops.index_negative_zero` — Disagreement: reals stand for floats, so that the element `-0.0` (value 1 of the type 3, promoted to 0) is read as `0.0`.
* `Ops.slice_aliased` — Disagreement: the slice is not a copy: `b = a[i:]` followed by `a[0] = 9` changes `b`.
* `Ops.build_string_lost` — Disagreement: of more than 255 pieces only those are kept that one byte counts: of 257, the last.
* `Ops.format_conversion_spec` — Disagreement: a field with a conversion and a format specification, such as `f"{x!r:>10}"`, raises `SystemError`, for all values (up to Python 3.12, where one opcode does both).
* `Ops.format_ascii` — Disagreement: `!a` gives the `repr`, also where `ascii` differs.
* `Stubs.rewrite_literal` — Disagreement: bars between quotes are rewritten too, so `Literal["r|w"]` - one string - becomes `Literal[Union["r,w"]]`, which names another string and is no literal type.
* `Stubs.rewrite_quoted_bracket` — Disagreement: brackets between quotes count too; a string with a closing bracket makes the rewriting fail with an `IndexError`.
* `Stubs.skipped_valid` — Disagreement: a branch whose condition does not mention `sys.` (`if TYPE_CHECKING`), or cannot be evaluated, is passed over, and so is an `async` function; the signatures that remain are reported as valid although some are missing.
* `Callbacks.stale_runs` — Disagreement: the callback of an instruction that raised is not dropped; when the instruction is executed again in the same frame, with an operand that needs no callback, the old callback runs after it and overwrites the result.
* `Callbacks.stale_hides` — Disagreement: the callback of a frame that was left by an exception stays on top of the stack, and hides the callback of the instruction that was running further out: that one never runs, so the stand-in stays as the result of its instruction.
* `DecimalMore.next_plus_signals` — Disagreement: the specification lets `next_plus` signal nothing for numbers, and the code asks for that with `_ignore_all_flags`, but `_raise_error_in_ctx` does not look at the ignored flags. After the largest number it signals an overflow, which the default context traps, so that an exception comes instead of infinity.
* `Numeric.int_pow_negative` — Disagreement: a power of symbolic integers with a negative exponent is an integer, the rational power rounded down; in Python it is a float. `2 ** -1` is 0 instead of 0.5.
* `Numeric.pow_infinite` — Disagreement: with an infinite or NaN operand, `**` is computed from the sign of the other operand, as for the other operators. `2.0 ** inf` is 1.0 instead of infinity, `2.0 ** nan` is 1.0 instead of NaN, and `(-inf) ** 2.0` is minus infinity instead of infinity.
* `Numeric.big_int_equal` — Disagreement: a native integer beyond `2 ** 53` is turned into a float before it is compared with a symbolic float, so `2.0 ** 53 == 2 ** 53 + 1`; Python compares the values exactly.
* `Numeric.big_int_overflow` — Disagreement: comparing a symbolic float with a native integer that no float can hold raises `OverflowError`; Python gives an answer.
* `Numeric.ieee_floordiv_infinite` — Disagreement: `//` of IEEE floats is the floor of the quotient. `inf // 2.0` is infinity instead of NaN, and `-5.0 // inf` is 0.0 instead of -1.0.
* `Numeric.ieee_mod_nearest` — Disagreement: `%` of IEEE floats is the solver's remainder, which belongs to the nearest quotient. `5.0 % 3.0` is -1.0 instead of 2.0, and `5.0 % -3.0` is -4.0 instead of -1.0.
* `Numeric.copysign_kind` — Disagreement: `math.copysign` of a symbolic integer is an integer; in Python the result is always a float.
* `Buffers.bytes_equal_array` — Disagreement: `b"a" == array("B", b"a")` is true under CrossHair, false in Python.
* `Buffers.bytearray_add_wide` — Disagreement: a `bytearray` cannot be added to an array of wider numbers, although a `bytes` can and Python allows both.
* `Buffers.bytearray_unchecked` — Disagreement: `bytearray([300])` is accepted under CrossHair and contains 300; in Python it is a `ValueError`.
* `Buffers.tobytes_changes` — Disagreement: the immutable result of `memoryview.tobytes()` changes when the viewed bytearray is written to later; in Python it is a copy.
* `Buffers.extend_view_changes` — Disagreement: so does what `bytearray.extend(view)` added.
* `Buffers.view_write_outside` — Disagreement: a write at an index outside of a view changes the bytes of the object next to the view; in Python it is an `IndexError`.
* `Buffers.view_slice_open` — Disagreement: assigning to `view[:2]` is a `TypeError` under CrossHair.
* `Buffers.view_slice_negative` — Disagreement: a negative first bound is taken from the wrong end of the object: `view[-1:3]` of a view on `object[1:4]` means its last byte, but is refused under CrossHair.
* `Buffers.view_slice_outside` — Disagreement: an assignment to a slice that reaches beyond a view writes to the object beyond the view; in Python the slice ends with the view.
* `Buffers.view_self_assignment` — Disagreement: after `view[0:2] = view`, which changes nothing in Python, the object refers to itself, and reading it never comes to an end, however deep the call stack is.
* `Buffers.resize_with_view` — Disagreement: a bytearray can be resized while there is a view on it; in Python that is a `BufferError`. Reading the view afterwards fails.
* `Buffers.extend_error` — Disagreement: of `extend([300, "a"])` Python notices the number first, CrossHair the string.
* `Explore.exhausted_although_cut_short` — Disagreement: "All paths exhausted, functions are likely the same!" is also printed when the only path on which the functions differ was cut short (`--per_path_timeout`): a path that ends UNKNOWN counts as explored (statespace.py 1320-1347), and only the exhaustion is looked at (diff_behavior.py 221-224, main.py 692-697). `x < 3` and `x < 4` differ for `x = 3`.
* `Explore.exhausted_although_untold` — Disagreement: it is also printed when a difference was found and could not be described: an exception in a `__repr__` discards the difference (diff_behavior.py 288-317).
* `Explore.exhausted_although_half` — Disagreement: it is also printed when only one of the two halves is exhausted, here that of the narrower signature, while the time of the other is over at once.
* `Explore.one_iteration_is_none` — Disagreement: with a limit of one iteration, `explore_paths` makes one, and `diffbehavior` none: "attempted 0 iterations".
* `Explore.search_reports_an_ignored_path` — Disagreement: a path that is to be ignored, because `IgnoreAttempt` was raised in the call (for instance a symbolic dictionary turned out to be inconsistent, builtinslib.py 1911) or because a function called violates its own postcondition, is swallowed by `ExceptionFilter` (core.py 239-250) and then taken for one that succeeded (core.py 1456-1463): `crosshair search` prints an example although the call succeeds on no input.
* `DateText.date_reads_a_sign` — Disagreement: a year with a sign, a month with a blank and a day with an underscore before it are read, although they are not in the documented form and CPython refuses them.
* `DateText.time_reads_two_signs` — Disagreement: an hour with a blank before it, and an offset with two signs, are read although they are not in the documented form and CPython refuses them.
* `DateText.short_text_is_index_error` — Disagreement: a text that is too short makes `datetime.fromisoformat` raise `IndexError`, which is not the documented `ValueError`.
* `DateText.cut_texts_are_read` — Disagreement: a day of one digit at the end, and a separator with no time after it, are read as dates with times although they are not in the documented form.
* `Repro.keyword_text_is_no_python` — Disagreement: an object passed twice by keyword is written `f(x=v1:=[1], y=v1)`, which is not Python: a keyword argument may not be an assignment expression without parentheses.
* `Repro.dict_text_is_no_python` — Disagreement: an object that is two values of a dictionary is written `{1: v1:=[1], 2: v1}`, which is not Python.
* `Repro.single_tuple_text_is_no_tuple` — Disagreement: the tuple `(1,)` is written `(1)`, which is the number 1.
* `Repro.default_before_varargs_is_no_python` — Disagreement: for `def f(a=0, *args)` the call `f(1, 2)` is written `f(a=1, 2)`, a syntax error.
* `Repro.shared_result_text_is_empty` — Disagreement: a result that *is* one of the arguments, as the empty tuple and the empty bytes always are (Python keeps only one of each), has no text at all: it is written as the name it was given in the arguments, which `cleanup` then removes because it occurs once.
* `Repro.shared_arguments_dictionary` — Disagreement: one list passed for two parameters is written `{"a": v1:=[1], "b": v1}`, which is not Python.
* `Zones.time_hash_fails` — **C172, disagreement.** A time of day whose offset has seconds cannot be hashed: an assertion fails. (Python's own `time` can.)
* `DecimalDigits.next_toward_signals` — A disagreement: the number next to 1, which the context holds exactly, is found with signals that `Decimal.next_toward` does not give, since the context in which `next_plus` works does not heed its own list of ignored signals.
* `Analyze.init_invariants_checked` — Disagreement: the comment in the code says that invariants are not checked on `__init__`; but if `__init__` has a precondition they are, since its conditions are looked up again.
* `Analyze.method_kind_ignored` — Disagreement: a directive that sets the kind of analysis holds for functions (`function_checks`), but for methods it is recorded in the options of the check and not obeyed: here contracts in the docstring are checked although the options in force ask for asserts.
* `Analyze.line_after_function` — Disagreement: the line after the last line of a function is taken to be inside the function.
* `Analyze.callable_crash` — Disagreement: a function without parameters in a class (for example a lambda as a class attribute) makes the analysis of the class fail with an `IndexError`.
* `Analyze.names_shadowed` — Disagreement: a closure variable with the name of a global variable is not seen; conditions get the global one.
* `Inputs.tuple_hides_mutable` — Disagreement: an instance of an ordinary class counts as mutable, but a tuple with it counts as deeply immutable.
* `Oracles.detached_ignored` — Disagreement: decisions made after the path was detached count, if no decision comes right before.
* `Oracles.number_reused` — Disagreement: an expression that came back at another address is not kept, but its address is; another expression at that address then gets its number, and what is known about the one is used for the other.
* `Oracles.certainty_overridden` — Disagreement: preferred constraints win over a branch that the engine asks for with certainty.
* `Differential.deep_function` — Disagreement: a function four containers deep is overlooked.
* `Differential.key_function` — Disagreement: so is one that is the key of a dictionary.
* `Pep316.invariant_dropped` — Disagreement: an invariant with brackets (which a function's docstring would get a message for) is dropped without a message: the result is the same as for a class without invariants.
* `Pep316.blank_before_dot` — Disagreement: with a blank before the dot the argument is not recognised, so that changing it counts as an error.
* `Pep316.blank_brackets` — Disagreement: a blank in the brackets declares an argument with the empty name, which no function has.
* `Pep316.next_line_taken` — Disagreement: after the word `raises` alone on a line, the beginning of the next line is taken for a declaration.
* `CaseMaps.final_sigma_lost` — Disagreement: for a symbolic string that is "ΑΣ", `lower`, `title`, `capitalize` and (for "αΣ") `swapcase` give a small sigma at the end where Python gives a final sigma.
* `CaseMaps.lookup_error_escapes` — Disagreement: for a table whose lookup raises `LookupError` itself, Python keeps the character, and `translate` of a symbolic string raises the exception.
* `Proxies.empty_tuple_filled` — Disagreement: on Python 3.11 and newer the arguments of `Tuple[()]` are an empty tuple, which `make_tuple` (builtinslib.py 4703-4706) takes for `Tuple` without arguments: tuples that are not empty are made.
* `Proxies.binary_stream_is_text` — Disagreement: the maker of `IO` (builtinslib.py 5442-5444) compares the argument with the text "bytes" instead of the class, so that for `IO[bytes]` text streams are made.
* `Proxies.sequence_never_list` — Disagreement: for `Sequence[t]` only tuples are made (collectionslib.py 255), never lists.
* `Proxies.entry_never_derived` — Disagreement: the entries of a typed dictionary are made without subtypes (core.py 518), so that instances of derived classes are never made; here the class of the entry is abstract and nothing at all is made.
* `Proxies.keys_share_variables` — Disagreement: entries of a typed dictionary are named after their keys without a fresh number (core.py 518), so that parts of one entry can share a variable with another entry: the length of `name` with `namelen`, the seconds of the time span `timeout` with `timeout_sec`, the first item of the tuple `p` with `p_at_0`.
* `Proxies.parameters_share_variable` — Disagreement: the items of a tuple are named without a fresh number (builtinslib.py 4713-4716), so that in `def f(a: Tuple[int, int, int, int], a_2_at: int)` the last item of `a` and `a_2_at` are the same variable (numbers begin with 2, statespace.py 790).
* `Registry.shared_list_grows` — Disagreement: if two functions are registered with the same list of signatures, a signature registered for one of them becomes one of the other.
* `Registry.own_list_changes` — Disagreement: the list that the program passes is changed by later registrations.
* `Registry.lookup_blocks_registration` — Disagreement: the documentation of `register_modules` says that a function of a registered module whose body should be run can be registered with `skip_body=False`. If its contract has been asked for before, the registration is refused, and its body is skipped.
* `Editor.publish_race` — Disagreement: if a file is changed while the analysis publishes, messages about the old text are marked in the changed file; and there they stay, whatever the analysis does, until something happens to this file in the editor again.
* `Editor.forget_race` — Disagreement: if a file without messages is changed just before the analysis forgets it, it is no longer known to be changed: what is found in the old text is marked in the changed file.
* `Editor.restart_race` — Disagreement: the same if it is changed while the analysis starts again.
* `Editor.nameless_file_ends` — Disagreement: a message about code that is in no file (as `<string>`) ends the thread that analyses: nothing is ever marked again.
* `Editor.wide_characters` — Disagreement: the columns are numbers of characters, but the protocol counts units of UTF-16: on a line with characters like emoji, the mark ends too early.
* `Editor.line_zero` — Disagreement: a message on line 0 (code whose line is unknown) is put on line -1, with the columns of the last line.
* `Floats.many_digits` — Disagreement: rounding to very many digits raises an error, though nothing has to be done.
* `Floats.few_digits` — Disagreement: and so does rounding to a multiple of a huge number, as `10 ** -400` is 0; the result should be 0.
* `Floats.float_digits` — Disagreement: the number of digits may be a float; this should be a `TypeError`.
* `Floats.huge_integer` — Disagreement: a huge symbolic integer becomes infinity, where Python raises an `OverflowError`.
* `Floats.is_integer_infinite` — Disagreement: asked whether infinity or NaN is an integer, the float raises an error, where Python answers no.
* `Floats.floor_is_float` — Disagreement: the methods for the integer below, the integer above and the integer part give floats.
* `Floats.round_large` — Disagreement: rounding a large float to digits gives infinity; it should stay as it is.
* `Floats.round_twice` — Disagreement: the float 0.005 is slightly more than 1/200, but rounded to two digits it becomes 0.0 instead of 0.01, since the product with 100 is rounded, too.
* `Floats.text_rounded_twice` — Disagreement: the text `1.14` becomes the float after the nearest one, as the fraction and the sum are both rounded.
* `Floats.long_fraction` — Disagreement: a text with 400 digits after the point raises an `OverflowError`.
* `Calls.many_arguments` — Disagreement: with 256 arguments, an argument is taken for what is called; if it is a function that has a replacement, the call gets another argument, and the function that is called is not replaced. (Not in 3.12 and 3.13, where such a call is not intercepted at all: see `Depths.prefixed_not_traced`.)
* `Calls.super_method` — Disagreement: the built-in method that `super()` gives is taken for the method of the class that overrides it. If that has a replacement (as it has when it has contracts), this replacement is executed: the method calls itself.
* `Calls.instance_call` — Disagreement: an object that has an attribute `__call__` of its own, which Python ignores, is not called when that attribute is a function with a replacement; the replacement is, without the object.
* `Calls.none_method` — Disagreement: a method of `None` is never replaced.
* `Depths.range_entered_late` — Disagreement: when a range is entered behind its start, and its start is not reached otherwise, no depth is found for its handler. (CrossHair then raises an exception of its own when a call in the handler is intercepted. The compiler makes no such code now.)
* `Depths.prefixed_not_traced` — Disagreement: an instruction with a prefix is not flagged, so CrossHair does not intercept it: here a call with 300 arguments.
* `Lazy.shown_text` — Disagreement: a function whose only value is the text `abc` is shown as `lambda *a: abc`; that is no text.
* `Lazy.copy_used_up` — Disagreement: copying a function that has given all its values fails.
* `Lazy.eq_moved` — Disagreement: a function that has been called compares equal to one with the same values that has not (the position of the other is not looked at), though they go on differently.
* `Lazy.eq_copy` — Disagreement: a function that has been called and its copy, which goes on in the same way, do not compare equal.
* `Lazy.deepcopy_undecided` — Disagreement: a copy of an object whose type has not been decided yet is the object itself: whatever the program does then with the object, the "copy" has the same contents, so that no change is ever noticed.
* `Passes.result_missed` — Disagreement: a pass can be complete although a result has not been given out. If the last worker ends after the loop has looked at the queue and before it removes workers that have ended, the loop stops with the result in the queue; it is given out in the next pass, if there is one.
* `Passes.newest_last` — Disagreement: files are put in order with those changed last in front, but the pool takes work from the back: with one worker, the file just changed is analysed last.
* `Passes.unfinished_line_loses_result` — Disagreement: if the analysed code prints something without ending the line, the result is attached to it and is not read: the analysis of the file is lost.
* `Wrappers.filterfalse_none` — Disagreement: `filterfalse(None, …)` gives the false items in Python, but fails under analysis.
* `Wrappers.groupby_none` — Disagreement: `groupby(…, key=None)` groups equal items in Python, but fails under analysis.
* `Wrappers.accumulate_none` — Disagreement: `accumulate(…, None)` adds in Python, but fails under analysis.
* `Wrappers.cache_effects` — Disagreement: a cached function that counts its calls gives the first count again in Python, but the next one under analysis.
* `Wrappers.cache_keys` — Disagreement: the cache takes `1` and `1.0` for the same argument; a function that does not (here it tells whether the argument is a float) gives another result under analysis.
* `Wrappers.partial_func_keyword` — Disagreement: `partial(f, func=1)` works in Python; under analysis it is a `TypeError`.
* `Wrappers.other_variable_changes` — Disagreement: after `y = x; x += 1`, where `x` is an object of unknown type that turns out to be an integer, `y` is the new number too. (Variables are truth values: `false` for `x`, `true` for `y`; object 7 is the old number, 8 the new one.)
* `DateInputs.timezones_missed` — **Disagreement**: the time zone with the largest offset, and time zones without a name, can be made in Python but are never tried.
* `DateInputs.datetimes_missed` — **Disagreement**: a moment with `fold=1` can be made in Python but is never tried: the variable for `fold` is made and dropped.
* `DateInputs.replace_date_none` — **Disagreement**: `None` for a field is a `TypeError` in Python, and under analysis it keeps the field.
* `DateInputs.replace_time_none` — **Disagreement**: `None` for a field and `True` for the time zone are `TypeError`s in Python, and under analysis they change nothing.
* `Keys.nan_stored_twice` — **Disagreement**: a NaN that is stored twice is there twice, the first value is found, and it cannot be deleted; in Python there is one item, with the second value, and it can be deleted.
* `Keys.unhashable_accepted` — **Disagreement**: a tuple that holds a list is taken as a key, where Python raises `TypeError`.
* `Keys.nan_unequal` — **Disagreement**: dictionaries with the same NaN as value, or as key, are equal in Python and unequal under analysis.
* `Keys.shell_nan` — **Disagreement**: a second value for NaN is not seen, and after a deletion no value is. In Python the last value is found.
* `Keys.set_nan_missed` — **Disagreement**: a NaN is not found in a set it is in.
* `Cover.names_hidden` — **Disagreement**: the second test of `f` and the first test of `f_2` have the same name; the later one hides the other.
* `Cover.imports_clash` — **Disagreement**: functions with the same name in two modules are both imported under that name; the tests of the first are run with the second function.
* `Cover.exception_not_imported` — **Disagreement**: the class of an exception is used in a test but not imported.
* `Values.real_rounded` — Disagreement: the constraints of the path are about the number itself, so that a number that is no float is not the value reported.
* `Values.real_too_large` — Disagreement: for a number above all floats, there is an `OverflowError` from CrossHair and not from the user's function.
* `Values.sequence_shape` — Disagreement: a sequence that the solver gives as one join of three items becomes the empty list, and one that is joined from the left becomes a list in a list.
* `Sources.tuple_taken_unequal` — Disagreement: a list that was extended by a tuple or a text, or whose items were replaced by those of one, is not equal to the list of its items.
* `Sources.iterator_taken` — Disagreement: a list that was extended by a generator or another iterator has no length, and its items are there only once.
* `Sources.bag_taken` — Disagreement: the items of a list that was extended by a frozen set, or the values of a dictionary, cannot be read by their numbers.
* `Aliases.imul_new_list` — Disagreement: `*=` makes a new list, so that other variables do not see the change, and are no longer the same list.
* `Aliases.mul_one_alias` — Disagreement: `y * 1` is the list `y` itself, so that it changes with `y`.
* `Aliases.add_other_kinds` — Disagreement: `+` with a tuple, a text or a range gives a list, and no `TypeError`.
* `Protocols.len_negative` — Disagreement: a negative length is given as it is, where Python raises `ValueError`; what is no integer is given as well.
* `Protocols.len_of_instance` — Disagreement: a `__len__` that was set on the object, or that `__getattr__` makes up, counts; for Python the object has no `len()`.
* `Protocols.hash_raw` — Disagreement: `hash` gives -1, and numbers of more than 64 bits, where Python gives -2, and a number made smaller.
* `Protocols.repr_no_text` — Disagreement: what `__repr__` returns is given though it is no text, where Python raises `TypeError`.
* `Protocols.static_fails` — Disagreement: a `staticmethod` as `__str__` or `__hash__` is called with the object, and raises `TypeError`.
* `Protocols.claims_ignored` — Disagreement: an object that claims to be of another class with `__class__` (as mocks with a `spec` do) is not an instance of it.
* `Protocols.instance_check_ignored` — Disagreement: a class that checks objects but not classes: protocols with data members raise `TypeError`, and an `__instancecheck__` without `__subclasscheck__` is not asked.
* `Protocols.sorted_by_index` — Disagreement: objects that are read by index, without `__iter__`, cannot be sorted: there is an `AttributeError`.
* `Protocols.setattr_symbolic` — Disagreement: `setattr` with a symbolic name always raises `TypeError`.
* `Reflected.equal_to_all_is_not` — Disagreement: an object that says it is equal to everything (as `unittest.mock.ANY`) is not equal to a list, tuple, bytes object, range, set or dictionary from the left, though it is from the right.
* `Reflected.change_hides_method` — Disagreement: after a dictionary was changed, it is not equal to such objects any more.
* `Reflected.order_not_asked` — Disagreement: texts, lists, tuples and bytes objects cannot be ordered with objects that know how to; there is a `TypeError`.
* `Reflected.radd_not_asked` — Disagreement: `__radd__` of an object is not asked by texts, lists and bytes objects.
* `TypedDicts.disagreement_nested_not_bound` — Disagreement: a type variable in a `TypedDict` that is the type of a field of another `TypedDict` is not bound afterwards, although the types were accepted: the map with it was put in front of those of a child, which is gone.
* `TypedDicts.disagreement_inconsistent` — Disagreement: so a variable that stands for `int` in one field and for `str` in another is accepted if the first is deep enough, and refused if not. Neither of the two types makes all values made for the one type usable as the other, and the variable is not bound afterwards.
* `TypedDicts.disagreement_refused` — Disagreement: a `TypedDict` with required fields is not accepted where an `object` is expected, nor, with one more required field, where the same is expected without it; and there are exceptions where a `TypedDict` is expected and a class is given, and for `TypedDict`s without required fields.
* `Unbound.disagreement_subclass` — Disagreement: for a symbolic object of a proper subclass, like a `bool` for methods of `int` (`int.bit_length(b)`), there is always a `TypeError`.
* `Unbound.disagreement_tuple` — Disagreement: if a text that is not symbolic is asked whether it ends with one of the texts in a tuple, and one of these is symbolic, there is a `TypeError`.
* `Unbound.disagreement_none` — Disagreement: for an object of another class, if some argument is symbolic, what happens is what the symbolic method does with `None`.
* `Formatting.changes_are_lost` — Disagreement: whatever its method does, an object that can be copied is not changed by formatting: by `format`, by templates, or by `%`. Python calls the method on the object.
* `Formatting.template_text_differs` — Disagreement: so a template with the same object twice gives another text than Python's, while `%` gives the same.
* `Formatting.returns_other` — Disagreement: `format` returns what the method returned, whatever that is, where Python raises a `TypeError`.
* `TypedArrays.narrow_codes` — Disagreement: the bounds for `i I l L` are narrower than the C types: valid items are refused, and are not among the inputs.
* `TypedArrays.assignment_unchecked` — Disagreement: item assignment and `insert` take anything; realizing the array, for example to return it, fails then.
* `TypedArrays.floats_taken` — Disagreement: floats that are within the bounds are taken.
* `TypedArrays.extend_prefix` — Disagreement: if `extend` fails, Python has added the items before.
* `TypedArrays.tobytes_changes_eq` — Disagreement: after `tobytes` an array is not equal to any array that it was not called on, in either order.
* `DefaultDicts.contains_adds` — Disagreement: with a factory, `k in d` is always true, and adds the key, where Python says that the key is not there.
* `DefaultDicts.defaults_not_used` — Disagreement: so it is with `get` and `setdefault`, which do not give the default that they are called with; and `pop`, which does not fail, nor give the default.
* `DefaultDicts.popitem_first` — Disagreement: `popitem` takes the first entry, where Python takes the last.
* `Gcds.three_refused` — Disagreement: three or more integers are a `TypeError`.
* `Gcds.floats_taken` — Disagreement: floats whose values are integers are taken, where Python raises a `TypeError`.
* `Gcds.none_taken` — Disagreement: with an object that is not true as the second argument, like `None`, the first is given without its sign.
* `Replays.changed_twice` — Disagreement: if the program changes a returned list, the replay starts with the changed list: whatever list is returned, and whatever is appended.
* `Evals.caller_hides` — Disagreement: if only globals are given, local names of the caller hide those in the globals: `eval("x", {"x": 1})` is the caller's `x`.
* `Evals.assignment_elsewhere` — Disagreement: and assignments in the expression do not reach the globals that are given.
* `DictGets.keyword_taken` — Disagreement: the default is accepted as a keyword; Python raises `TypeError`.
* `DictGets.items_overridden` — Disagreement: for keys other than numbers and text, subclasses of dictionaries that override `items` lose entries: with one that lists nothing, the default is returned for all keys.
* `DictGets.hashes_ignored` — Disagreement: objects that are equal but have different hashes are found; Python does not find them.
* `Plugins.own_names_unseen` — Disagreement: functions of plugins do not see what the plugins import, assign or define: calls raise `NameError`.
* `Plugins.names_of_main` — Disagreement: and if `crosshair/main.py` has a name that a plugin sets, the functions of the plugin see the one of `main.py`.
* `Interrupts.early_interrupt` — Disagreement: an interrupt before that (while files are looked at, or the watcher is made) ends with an `UnboundLocalError`.
* `Interrupts.second_interrupt` — Disagreement: a second interrupt while the workers are being terminated leaves them running, and ends with a `KeyboardInterrupt`.
