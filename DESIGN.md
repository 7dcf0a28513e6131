# A formal model of webability-go/xcore in Lean 4

The subject is the Go module in `/repo`: the current package `/repo/v2` (`github.com/webability-go/xcore/v2`, version 2.3.2), and
the package of the first version in the root of the repository where the sections below say so. No Go code is executed. The tie
between the code and the model is the citation `file:lines` on every definition under `Verif/Model`.

## Layout

| directory | contents |
|-----------|----------|
| `lean/Verif/Base` | byte strings, the functions of `strings`, `strconv` and `sort` that the code calls, finite maps, the type of outcomes |
| `lean/Verif/Model` | the model, function by function, with citations |
| `lean/Verif/Spec` | small specifications used in the statements of the theorems, independent of the model's functions |
| `lean/Verif/Proof` | helper lemmas |
| `lean/Verif/Props` | the property theorems `Cnn_…`, each with a non-vacuity `example` |
| `properties.jsonl` | the properties in English |
| `MANIFEST.json` | property → theorems (written by `scripts/manifest.py` from the names in `Props` and the notes in `scripts/notes.json`) |
| `seeded/LOG.jsonl` | wrong programs the theorems were tested against |
| `scripts/mutate.py` | runs a wrong program against the theorems in a scratch file (see "Wrong programs") |
| `scripts/design.py` | writes the two generated sections at the end of this file |

How to read a theorem. The statement uses the API functions of `Verif/Model` and relations of `Verif/Spec`; a reader needs the
spec file named at the top of the props file, the signature of the API functions, and nothing of `Verif/Proof`.
A theorem with the suffix `_partial` proves part of its property; the docstring says what is missing. Where a property is false of
the code there is, beside the partial theorem, a theorem without suffix that proves a counterexample.

## Modelling decisions

* **Strings** are `Str = List UInt8`: all byte strings, including invalid UTF-8. White space of `strings.TrimSpace` is modelled with
  the multi-byte Unicode spaces.
* **Maps** are association lists without repeated key. The order of the list is the iteration order of the Go runtime. Where an
  order could be seen (printing, Clean, Verify, Clone) theorems either show that the order does not matter or quantify over it.
* **Numbers.** `int` is 64 bits wide: conversions in GetInt wrap. Times and durations are unbounded integers. Floats are 64-bit
  and 32-bit patterns (IEEE 754); conversions between them and with integers are defined on the bits (`intToF64`, `f32to64`, `f64ToInt`), except the conversion
  to int of a float out of range, which Go leaves open; their formats are parameters (`Ext`), about which nothing is assumed.
* **Memory.** Datasets, collections, thread-safe wrappers, language tables and slices live at addresses of a heap (`Heap = List Obj`), so
  that sharing, aliasing and cycles can be expressed. Templates live at addresses of a second heap (`THeap`).
* **Outcomes.** `Res α` is a value, a panic or no end. Recursive functions of the code that may not end (Clone, String, GetTemplate, the
  injector) take a bound on the nesting of calls; `diverge` is the outcome when the bound is too small. A theorem "terminates" gives
  a bound that is enough; a theorem "does not terminate" holds for all bounds; more bound never changes an outcome
  (`C55_bound_is_irrelevant`).
* **Clock.** `time.Now()` is the parameter `clk : Nat → Int`, the successive readings inside a call; nothing is assumed about them (not
  even monotonicity, except where a theorem says so).
* **Validator** of the cache: an arbitrary function, which may differ from call to call; in C98 and C101 an arbitrary program that calls the cache.
* **Templates.** The regular expression of the lexer is modelled twice. Model/Regexp.lean has the text of the expression as it stands in the
  code, a parser for this part of the syntax of Go's `regexp`, and matching by UTF-8 runes in the order of a backtracking engine (which is
  how the package documents its results). Model/Template.lean and Model/V1/Template.lean have it as a deterministic matcher on bytes: the
  alternatives in order, the lazy `(.*?)` as the first closing mark, `[class]+?` as the longest run followed by the closing mark. C94 proves
  that both give the same. The second pass (boxes) is modelled step by step with its pointer stack, and related to a grammar of
  documents (`Doc`, `Means`). The rendering is modelled by `injector` with a heap of data and the stack of scopes, and related to a big-step
  specification (`Renders` and the relations of Spec/TemplateRender.lean).
* **XML.** `xml.Unmarshal` is modelled for the subset described at the top of Model/Xml.lean (elements, attributes, text, entities, numeric
  references, CDATA, comments, processing instructions, declaration); theorems C30–C36 hold for an arbitrary `unmarshal` function, C35, C92 and the last theorem of C62 for the subset.
* **Concurrency**, in six parts:
  1. `Model/Lock.lean`: goroutines, an `RWMutex` and methods made of micro steps between Lock and Unlock. A schedule picks any goroutine
     at any time. `Model/Method.lean`, `Model/TSMethods.lean`, `Model/CacheSections.lean` write the real methods as such programs, and prove
     that one uninterrupted run of the micro steps is the function of the sequential model (C14, C57, C28).
  2. `Model/CacheConc.lean`: XCache with Get and Verify as sequences of critical sections with unlocked code between them (C12, C13).
  3. `Model/CollectionConc.lean`: XDatasetCollectionTS.GetData, which releases the lock between elements (C27, C61).
  4. `Model/LanguageConc.lean`: calls of XLanguage as sequences of critical sections of part 1 (LoadString: one per line), and the accesses to
     Name and Language, which take no lock, as a second system (C77, C78).
  5. `Model/Nested.lean`: all thread-safe objects of a heap at once, each with its own `RWMutex` with Go's writer preference (a writer that
     waits keeps new readers out). A call is a stack of instructions, and a call into a nested object pushes the instructions of that call, with the
     outer locks still held (C84 to C87, C107).
  6. `Model/TemplateConc.lean`: Execute as a program whose accesses to the data are single steps (one lookup, one type assertion, one Set, one
     printing of a value), run by any number of goroutines on one memory (C97). The locks of the thread-safe types make the accesses single
     steps; with plain types that goroutines share, Go promises nothing, and C97 says nothing about them. Where no rows are shared between
     renderings, plain types suffice (C114).
  7. `Model/CacheRace.lean`, `Model/V1/CacheRace.lean`, `Model/LanguageRace.lean`: caches and language tables access by access, every read and
     write of a memory cell with the lock held at that moment, for the data races of whole programs (C104 to C106).
  Assumed: sequential consistency; a mutex that is free can be taken by any waiter (the writer preference of Go's RWMutex only removes
  schedules; it matters only when one goroutine takes a lock twice, which parts 1 to 4 leave out and part 5 has).

## Not modelled

* Go's memory model for racy accesses: reads of unprotected fields are steps that see some written value.
* Overflow of counters (they count entries of maps, elements of slices or bytes of texts) and of times (`Time.Add` keeps seconds and
  nanoseconds apart). Overflow of `total * perc` in Clean is modelled in Model/CacheWords only (C95); the other models of the cache are
  unbounded, which C95 justifies for percentages between -100 and 100.
* Objects not made by constructors, except the literals of C96 (Model/Zero): typed nil pointers inside interfaces, nil collection elements other
  than those the API can store, implementations of `XDatasetDef` and `XDatasetCollectionDef` from outside the package.
* Capacities and sharing of backing arrays of slices, except in Model/Slices (C102), which shows that collections do not depend on them.
* `golang.org/x/text/language`: a tag is the text it prints, `language.Parse` is a parameter.
* `encoding/xml` outside the subset; `fmt` verbs for floats, times and foreign values (parameters); `log`.
* File systems other than "the contents of a file, or an error" (Model/Files.lean).
* Validators that start goroutines (the interleavings of Model/CacheConc.lean cover the calls
  of those).
* Test files and documentation.

## The properties: model and proof

| id | what is modelled | how it is proved |
|----|------------------|------------------|
| C01 | cache `step` over all histories of calls | refinement to a map from key to last Set (data, creation time, TTL), induction over the history |
| C02, C03, C11 | `get`, `set`, `setTTL`, `del` on every reachable cache | case analysis on the three validity tests; map lemmas |
| C04 | histories | false for `Maxitems < 9`, after Flush and after expired entries were swept (witnesses); invariant `count < max(m,10)` otherwise; in all histories the pile is no longer than the limit plus the number of dropped entries |
| C05 | recency order computed from the history | invariant: the pile is the recency order; take/drop of it is what eviction removes; in all histories: a key never dropped stands in the pile once, behind all keys used before |
| C06 | Clean inside Set and alone | invariant: every present key is in the pile, so the pile never runs out; witness for percentages over 100 |
| C07, C08, C09 | `mClean`, `verify` | characterisation of the sweeps as filters; counts; witnesses where expired entries are not counted |
| C10 | Flush in a history | the pile is not emptied: witness; simulation with a fresh cache for calls that do not evict |
| C12, C13 | interleavings of critical sections, entries on a heap | invariants over reachable states; C13 false (a concurrent Get deletes the new entry): witness schedule, proved when no Get of the key is in progress |
| C14, C57 | micro-step semantics of goroutines and RWMutex, all locked methods as step lists | invariant linking every reachable state to a sequential execution in the order of lock release; progress measure |
| C15, C16 | heap of datasets and collections, `get` with paths | map lemmas; refinement of path strings to a navigation relation, by induction on the segments |
| C17 | Set/Get with `>` in the key | false (witness), proved for keys Get does not interpret |
| C18, C19 | typed getters over all value kinds | case analysis against a relation of documented conversions; C19 false from 2^63 on |
| C20 | String/GoString with sorting | sorted permutations are equal, by induction on nesting; language tables likewise |
| C21, C22, C23 | Clone on the heap | relation between original and copy, invariant under programs on either side; C23 false for slices and languages |
| C24 | NewXDataset on nested Go maps | induction on the tree and on the path |
| C25, C26 | collection calls | refinement to mathematical sequences; lookup from the end |
| C27, C61 | GetData in pieces between which others change the collection | witnesses of panic and of a missed element; invariants for programs that only append |
| C28 | panics inside locked methods, with and without defer | witnesses of locks left behind; invariant when no such panic is possible |
| C29 | wrapper chains | induction on the chain |
| C30, C31, C32, C33 | language table, bufio.Scanner with its limit of 65536 bytes; Model/Scanner: its buffer and arbitrary sizes of the reads; Model/TrimSpace: decoding of runes and strings.TrimSpace | last-write characterisation by induction over histories; lines and assignments as relations; the buffered loop refines the one without buffer (what is still to come is kept by every iteration); trimming by rune characterised through the encodings |
| C34, C36, C37 | loads, GetEntries with aliasing heap | C34 false (loads merge): witness; refinement between the aliasing and the plain model |
| C35 | GetXML and a decoder for its subset of XML | decoding the export step by step; witnesses of injection and loss where nothing is escaped |
| C38, C39 | lexer | the matches partition the text, uniquely (`Reads`) |
| C40, C41, C42 | second pass, template heap, lookup | simulation of the pointer stack by a document grammar; fathers form a chain |
| C43, C44 | comments and ends of line | skeleton of a token list; C44 false for two-byte line ends |
| C45–C50, C56 | `injector` | equations for each element against the big-step specification; frame lemmas for heap and stack |
| C51, C52, C60 | panics and termination of rendering | false for nil data and recursive boxes (witnesses); well-founded measure otherwise; C51: which documents panic without data, exactly; C52: which renderings never end, exactly (a set of renderings each of which comes to another of the set, or to a value without text) |
| C79 | histories of NewXTemplate, LoadString, AddTemplate, Clone (Spec/TemplateUnloaded) | invariant: such a template has no root; frame lemmas for loads, additions and clones |
| C80 | `injector` on data with nil elements (Spec/TemplateBreaks) | big-step specification of panics beside that of texts; sound by induction on the bound, complete by induction on the specification; a document without endless chains has one of the two |
| C81 | schedules of Model/CacheConc in which calls do not overlap (Spec/CacheSerial) against Model/Cache | simulation call by call: the heap of entries represents the cache; Verify in any order of keys by commutation of deletions |
| C82 | schedules of Model/CollectionConc in which calls do not overlap (`Turns`, `Effect` in Spec/CollectionConc) | the stages of one call as an invariant of its steps; then induction over the turns |
| C83 | schedules of Model/V1/CacheConc in which calls do not overlap (Spec/V1/CacheSerial) against Model/V1/Cache | simulation call by call, as C81 |
| C84 | all nested thread-safe objects at once (Model/Nested), executions `Run` of Spec/Nested | who waits for a lock of a lower layer waits for somebody who waits still lower; termination by a multiset order on the layers still to be entered; false with cycles, with changing layers and with locks left by a panic (witness schedules) |
| C85 | the same | invariant: every instruction on a stack that touches a dataset is under the instruction that gives the lock back; false for Clone and for two wrappers (witness schedules) |
| C86 | the same, one goroutine moving | induction on the path; the stack of instructions against the functions of Model/Dataset |
| C87 | the same, executions as lists of steps (Spec/NestedAtomic) | invariant along the path: the wrappers passed are held for reading, so by C85 the part of the path behind stays as it was read (two-phase locking); false behind elements of collections (witness schedule) |
| C88 | the memory of templates (Model/Template), any sequence of calls (Spec/TemplateGraph) | invariant: chains of fathers end; the rendering specification over `elements` and `seen`; simulation between the composed template and the one with the box |
| C89 | the same | false (witness); simulation if the part uses no outer names |
| C90 | the same | false (witnesses); the lookup against the set of fathers above a template |
| C91 | templates of version 1 by address: own elements and registered sub-templates (`Verif/Spec/V1/TemplateGraph.lean`) | refinement of the rendering rules of C74 stated over any kind of document (`RendersIn`), with the depth of calls as part of the document; a rank for everything built by the calls gives termination; simulation for added templates; self-reference as counterexample to the missing condition |
| C92 | the decoder of Model/Xml.lean against a grammar of documents on byte strings with trees as meaning (`Verif/Spec/XmlDoc.lean`) | equivalence in both directions: UTF-8, references, character data, names, attributes, markup and tokens, then the stack of open elements by strong induction on the text |
| C93 | conversions to float64 on the bits of IEEE 754 numbers | values as integers in units of 2^-1074; rounding to a multiple of the unit in the last place is nearest; the specification of the nearest number has one solution |
| C94 | the regular expressions as written, their syntax and backtracking search by runes (Model/Regexp) | continuation style for the first match; each alternative against the hand-written matcher; bytes of longer runes begin no delimiter; the parsed expression by evaluation of the parser |
| C95 | `total * perc / 100` of Clean in 64-bit two's complement, both versions (Model/CacheWords) | a call adds at most one entry, so the product stays in range and each call equals that of the unbounded model; witnesses outside the range |
| C96 | the methods of XLanguage and XCache on maps that can be nil, with the mutex that a panic leaves locked; XDatasetTS around nothing (Model/Zero) | step by step against the sequential models; a small machine for the literals, by induction on the history |
| C97 | Execute by many goroutines on shared data, step by step (Model/TemplateConc) | every step of a rendering gives the same whatever numbers other loops have written in between (`Sure`, by induction on the rendering rules of C45); an invariant over the list of goroutines with the number of steps left as measure; false for rows that are at different places (witness schedule) |
| C98 | Get and Verify with validators that are programs making calls on the cache; mutex, entries and abandoned maps with identity (Model/CacheValidator) | an invariant (mutex free, keys tracked, entry data = last Set) kept by every nested call, by induction on the nesting and on the validator program; refinement to the sequential model for validators that only answer |
| C99 | the cache of version 1 as in C65; entries dropped without regard to their use counted in Spec/V1/CacheLru | the invariants of C04 and C05 (surplus of the pile, order of last occurrences) carried over call by call; Verify on its own, as it leaves its keys in the pile |
| C100 | the page as a function of the document and of trees without addresses (Spec/Page); which datasets in memory, and which Go literals, have the content of a tree | the function and the rendering relation of C45 followed together by induction on the depth; rendering changes only the counters of rows; `NewXDataset` builds what the literal says |
| C101 | as C98 for xcache.go of version 1, whose Clean unlocks without defer (Model/V1/CacheValidator) | the same invariant without the lock after a panicking Clean; then every call blocks |
| C102 | slices with their arrays, offsets, lengths and capacities; append with an arbitrary growth policy (Model/Slices) | invariant: every collection has its array for itself; refinement to lists by induction on the history |
| C103 | as C74; specification: the page as a total function of the document and a tree (Spec/V1/Page) | simulation: memory and stack against the tree, for lookups, printing and every element; every acyclic memory has a tree, by induction on printing it |
| C104 | every step of the concurrent cache with its memory accesses and its hold of the mutex (Model/CacheRace) | invariant: every entry belongs to one key, so two Gets that hold the same entry are of the same key; then by cases on the memory cell |
| C105 | every step of the concurrent cache of version 1 with its memory accesses, each with or without the mutex (Model/V1/CacheRace) | invariants: every entry belongs to one key; in considerate programs at most one goroutine is in a Get that found its entry or in the second half of a Set with a limit; then by cases on the memory cell |
| C106 | the calls of a language table cut into single accesses and operations on the mutex, name and language included (Model/LanguageRace); version 1 without mutex | invariant: what every goroutine holds, and that the rest of its program accesses maps only under the lock; the converse by running one goroutine after the other up to its access |
| C107 | the executions of C84 to C87 with what is seen of them (Spec/NestedLinear) | forward simulation: the phase of every call from its stack, the moment of effect from the stages of C87; false behind elements (a history that no such objects have, by induction over its prefixes) |
| C108 | as C73 and C74; opening delimiters (Spec/V1/TemplateComment) | a comment inserted into a reading gives a reading (no element starts in literal text: it would need an opening delimiter there, or the next element would have been read one character earlier); documents that are the same up to comments render the same |
| C109 | as C72 and C103 | a copied value and its copy have the same content, by induction over the copy; objects that a program cannot get at keep theirs |
| C110 | the pages of C100 and C103 | both pages are computed element by element; equal for portable elements by induction over the nesting of the document |
| C111 | the FileValidator of the package documentation, over files that change between calls and between the steps of goroutines (Model/CacheFiles) | invariant over the ideal cache of C01 (each record was stored by an event, and a file not newer has its data), transferred by the simulation; the same invariant over the steps of Model/CacheConc |
| C112 | the methods of xcache.go of version 1 on a map that can be nil, with the mutex that a panicking call leaves locked (Model/V1/Zero) | simulation by the sequential model of version 1 up to the first panic; induction over the history |
| C113 | Execute of version 1 as a program whose steps look at one object each (Model/V1/TemplateConc) | the program computes the sequential Execute and looks only at reachable objects, by induction; an invariant over all interleavings with arbitrary changes elsewhere |
| C114 | the programs of C97 (Model/TemplateConc), no condition on the templates | the program looks only at objects of its data and changes only rows, by induction over the rendering; an invariant over all interleavings with a private copy of memory for each goroutine; confluence from it |
| C115 | Execute of version 1 (Model/V1/Template), `Alike` in Spec/V1/TemplateNames, `LookTheSame` in Spec/V1/TemplateLook | induction over the rendering with the invariant that all names tried are named in the document; that every name counts by data and templates built for the name |
| C116 | Execute on templates in memory (Model/TemplateExec), `LookTheSame` and `PlacesTheSame` in Spec/TemplateLook | a bisimulation: rendering with each bound is the same for paired templates, by induction on the bound; places of documents give paired templates because lookup is lexical; for each name of an element, data are constructed that lead to it (Proof/TemplateSharp) |
| C117 | Execute of version 1 on any memory (Model/V1/Template), `DataTheSame`, `RootTheSame` and `DifferOnlyIn` in Spec/V1/DataLook | a bisimulation between datasets: induction over the rendering, the datasets in scope side by side; for one entry, lookups ask only for segments of the path or its rest |
| C118 | Execute of version 2 on any memory (Model/TemplateExec), `Unseen` and `DifferOnlyIn` in Spec/DataLook | induction over the rendering: two memories that differ in the entry stay so while counters are written; lookups ask only for segments of the path or its rest |
| C53, C54, C63 | Clone of template heaps | simulation between clone and family; C54 false because clones share fathers |
| C64 | Clone, Execute; ways through data (Spec/DatasetTree) | clones are trees by induction on Clone; clone and original correspond place by place, so C55 applies; frame by induction on rendering; with shared data and loops false (witness) |
| C65, C66 | version 1: xcache.go (Model/V1/Cache) | every call but Verify is the call of version 2 on a renamed state; Verify has the same entries and a longer pile; invariants of C01, C06 carried over; C66 false after Verify and eviction (witness) |
| C67, C68 | version 1: small-step system (Model/V1/CacheConc), unlocked accesses of the pile separate, mutex not released by a panic | C67 invariant over schedules with an arbitrary corruption of the pile; C68 false (witness schedule), invariant for schedules without interleaved pile updates |
| C69 | version 1: xlanguage.go (Model/V1/Language), nil map and panics explicit | simulation: every call keeps name, language and entries equal to those of version 2; C30's statement carried over; nil map by induction over the lines |
| C70, C71 | version 1: xdataset.go (Model/V1/Dataset), memory without wrappers, language tables of version 1 inside | simulation: `up` maps the memory into that of version 2 and commutes with every call; conversions, sequence and lookups proved directly |
| C72 | version 1: Clone on the same memory | termination, same answers and independence carried over through `up` from the copy relation of C21–C23; sharing of slices and languages by witness |
| C73 | version 1: xtemplate.go (Model/V1/Template): regular expression, first pass, boxes | reading as in C38 with other element texts; compiling by simulation: forgetting the fathers of version 2's boxes |
| C74 | version 1: `injector`, `Execute`, one memory of data that does not change | big-step specification with panics as outcomes; each element of the model has the only outcome the specification allows; induction on the depth of boxes |
| C75, C76 | the same | termination by induction on the depth of boxes, because a box sees only its own boxes; C76 false (witnesses), invariant over renderings otherwise |
| C77, C78 | XLanguage used by many goroutines, loads included (Model/LanguageConc) | from C14 a history of sections; the last section that touches an entry decides, and it is the last one of its goroutine; C78 false for texts and for names (witness schedules), without texts sections are calls |
| C55 | rendering on two heaps | bisimulation of data (same contents, one-to-one sharing) preserved by every step |
| C58, C59 | failed loads, rendering twice | witnesses; frame lemmas for the parts that stay; C59: two memories that differ only in counters, followed through the rendering relation in lockstep; C58: the decomposition of an unbalanced text and what loading it leaves, exactly |
| C62 | constructors and file variants | from C31, C33, C35, C36 with the file system as a parameter |

## Differences between what one expects and what the code does

Each is a theorem (named in `MANIFEST.json`): the cache exceeds small limits, and grows without bound after Flush or when entries expire (C04); Clean and Verify do not
count expired entries (C07, C09); Flush keeps the recency list (C10); a finished Set can be lost to a concurrent Get (C13); keys with
`>` cannot be read back (C17); large unsigned values come back negative from GetInt (C19); clones share slices and languages (C23);
XDatasetCollectionTS lookups can panic, differ from XDatasetCollection and leave the lock behind (C26, C27, C28); loading a language merges (C34); the
XML export escapes nothing, so values can inject entries (C35); `\r\n` after a tag leaves `\n` (C44); an unmet condition without `.none` renders the
positive branch (C49); nil data can panic, recursive boxes do not end, not even on finite trees (C51, C52); template clones are not independent (C54); a failed load
leaves sub-templates behind (C58); `.counter` stays in the data and changes the next rendering (C59); an element moved by Unshift can be missed by
a lookup (C61); readers see half-loaded texts and mixed names of documents (C78); thread-safe datasets that refer to each other can block each
other for ever (C84); Clone of a thread-safe collection races with its changes (C85); a Get through an element of a collection can answer what the path led to at no moment (C87); a template
added to a second page sees the names of that page in the first one, too (C89); looking up a missing name never returns in a template that was added to
itself, or after some clones (C90); goroutines that render the same rows at different places print each other's counters (C97); a validator that refreshes an entry with Set does not
make Get return the new data, and if it answers false the new data are deleted; a validator that uninstalls itself makes Verify panic; one that reads
its own key never ends (C98, C101); a collection copied by assignment is overwritten by calls on the copy (C102); two Gets of one key, and Verify with any change, are data races (C104), and so are SetName, SetLanguage and LoadXMLString of a language table with GetName, GetLanguage and GetXML (C106). In version 1: every Set, Del and load of a language table is a data race with every other use of its entries (C106), a Get that finds its entry is a data race with every Set, Del, Clean and other such Get, and two Sets with a limit are one (C105), a Clean of more than 100 percent that panics leaves the mutex locked for ever (C101), entries refused in a Verify make room for more entries than the limit (C99), concurrent calls can leave the cache unusable (C68), rendering panics on loops over other values, on nil data and on
nil elements (C76), a condition on a dataset renders nothing and boxes do not see the boxes around them (C73, C74).

## Wrong programs

`scripts/mutate.py` concatenates the modules needed by the given props files into one scratch file outside `/verif`, with one edit in the
model. A theorem whose proof fails becomes an axiom for the rest of the file; the property theorems that depend on a failed proof are
those that do not survive. Before that the unedited file must pass. `seeded/LOG.jsonl` has one line per edit. Besides edits by hand, a
generator makes systematic edits (boundaries, dropped updates, swapped branches, emptied texts) of every definition; survivors were
either equivalent programs or led to a stronger theorem, which the log names.

## Trusted base

* The kernel of Lean 4.33.0. No `sorry`, no `native_decide`, no `bv_decide`, no axioms of our own.
* The axioms `propext`, `Classical.choice` and `Quot.sound`; per theorem below.
* The reading of the Go source: that each definition does what the cited lines do, under the modelling decisions above.
* That the specifications say what the English properties say.

### Axioms of each theorem

<!-- axioms begin -->
**Classical.choice, Quot.sound, propext** (370 theorems): `Cache.C01_get_reflects_latest_set`, `Cache.C01_get_exact_without_eviction`, `Cache.C01_get_exact_unlimited`, `Cache.C01_returned_data_is_latest_set`, `Cache.C02_invalid_reported_once`, `Cache.C04_capacity_partial`, `Cache.C04_documented_limit_partial`, `Cache.C04_capacity_and_dropped`, `Cache.C04_unbounded_after_flush`, `Cache.C04_unbounded_with_expire`, `Cache.C05_clean_is_lru_partial`, `Cache.C05_never_dropped_keys_partial`, `Cache.C05_set_never_dropped_keys_partial`, `Cache.C05_clean_with_expired_partial`, `Cache.C05_set_evicts_lru_partial`, `Cache.C06_clean_never_panics`, `Cache.C07_clean_count_partial`, `Cache.C07_clean_returns_percentage`, `Cache.C08_clean_removes_expired`, `Cache.C08_clean_zero_keeps`, `Cache.C09_verify_keeps_exactly_valid`, `Cache.C09_verify_count_partial`, `Cache.C09_verify_counts_refused`, `Cache.C10_nothing_survives_flush`, `Cache.C11_set_never_alters`, `CacheConc.C12_returned_value_was_set`, `CacheConc.C12_never_panics`, `CacheConc.C12_present_keys_are_tracked`, `CacheConc.C12_nothing_escapes_eviction`, `CacheConc.C13_set_survives_partial`, `Lock.C14_locked_calls_are_serializable`, `Lock.C14_mutual_exclusion`, `Cache.C14_cache_methods_atomic`, `Lock.C14_methods_are_atomic`, `Dataset.C14_xdatasetTS_methods_atomic`, `Dataset.C14_collectionTS_methods_atomic`, `Language.C14_xlanguage_methods_atomic`, `Dataset.C15_reachable_heaps_are_well_formed`, `Dataset.C17_get_after_set_partial`, `Dataset.C17_path_key_exactly`, `Dataset.C18_getBool`, `Dataset.C18_getInt`, `Dataset.C18_getFloat`, `Dataset.C19_getInt_integer_partial`, `Dataset.C20_string_terminates`, `Dataset.C21_clone_terminates`, `Dataset.C22_clone_is_not_affected`, `Dataset.C22_original_is_not_affected`, `Dataset.C24_new_dataset_mirrors_the_map`, `Dataset.C24_get_finds`, `Dataset.C24_get_finds_by_kind`, `Dataset.C24_get_finds_nothing_else`, `CollectionConc.C27_safe_without_removals_partial`, `CollectionConc.C27_value_comes_from_an_element`, `CollectionConc.C27_append_only_is_sequential_partial`, `Lock.C28_write_panic_without_defer_wedges`, `Lock.C28_read_panic_without_defer_blocks_writers`, `Lock.C28_no_lock_is_left_behind`, `Dataset.C28_collectionTS_without_pop_partial`, `Dataset.C29_new_wrapper_wraps`, `Language.C30_get_is_last_written`, `Language.C30_get_without_write`, `Language.C30_getStatus_is_last_written`, `Language.C30_getStatus_without_write`, `Language.C30_name_and_language`, `Language.C30_cases_exhaustive`, `Language.C31_load_assigns`, `Language.C31_assignment_unique`, `Language.C31_buffering_does_not_matter`, `Language.C31_trimming_is_that_of_strings`, `Language.C32_text_round_trip`, `Language.C33_lines_before_are_loaded`, `Language.C33_full_buffer_iff_long_line`, `Language.C34_load_into_empty_partial`, `Xml.C35_xml_round_trip_partial`, `Language.C37_getEntries_equals_table`, `Template.C38_text_is_read_uniquely`, `Template.C39_plain_text_renders_itself`, `Template.C40_error_iff_unbalanced`, `Template.C40_new_iff_balanced`, `Template.C40_balanced_iff_document`, `Template.C41_compile_builds_document`, `Template.C41_load_builds_document`, `Template.C42_lookup_is_lexical`, `Template.C42_lookup_asks_fathers`, `Template.C42_lookup_needs_no_limit`, `Template.C43_same_skeleton_compile`, `Template.C43_same_skeleton_render`, `Template.C43_comment_leaves_no_trace`, `Template.C44_end_of_line_is_swallowed_partial`, `Template.C45_execute_meets_specification`, `Template.C45_execute_starts_with_data`, `Template.C45_execute_nil`, `Template.C45_template_is_rendered_in_order`, `Template.C45_literals_and_comments`, `Template.C45_field_is_injected`, `Template.C45_injected_text_is_verbatim`, `Template.C46_language_entry_is_injected`, `Template.C47_reference`, `Template.C47_reference_with_dataset`, `Template.C47_reference_without_dataset`, `Template.C47_reference_by_value`, `Template.C47_reference_of_many_parts`, `Template.C48_loop_renders_every_element`, `Template.C48_loop_over_nothing`, `Template.C48_loop_without_template`, `Template.C49_condition_met`, `Template.C49_condition_met_by_dataset`, `Template.C49_condition_not_met`, `Template.C49_unmet_condition_renders_none_partial`, `Template.C49_condition_without_template`, `Template.C50_only_counters_change`, `Template.C50_scope_stack_is_restored`, `Template.C50_without_loops_nothing_changes`, `Template.C51_nil_data_does_not_panic_partial`, `Template.C51_panic_needs_use_of_data`, `Template.C51_use_of_data_never_returns`, `Template.C51_nil_data_panics_exactly`, `Template.C52_never_ends_exactly`, `Template.C52_tree_never_ends`, `Template.C52_execute_ends_partial`, `Template.C52_execute_terminates_partial`, `Template.C52_execute_nil_terminates_partial`, `Template.C52_inward_calls_terminate_partial`, `Template.C53_clone_returns`, `Template.C53_clone_renders_like_original`, `Template.C53_clone_of_compiled`, `Template.C54_new_text_partial`, `Template.C54_add_unused_name_partial`, `Template.C54_without_sub_templates_partial`, `Template.C55_equal_data_render_the_same`, `Template.C55_sharing_does_not_matter_without_loops`, `Template.C55_bound_is_irrelevant`, `Template.C55_execute_is_deterministic`, `Template.C56_unused_boxes_do_not_matter`, `Lock.C57_no_deadlock`, `Lock.C57_lock_released`, `Cache.C57_cache_never_deadlocks`, `Lock.C57_nobody_stuck_while_calm`, `Dataset.C57_xdatasetTS_never_deadlocks`, `Language.C57_xlanguage_never_deadlocks`, `Template.C58_failed_load_keeps_root_partial`, `Template.C58_failed_load_adds_complete_boxes`, `Template.C58_load_fails_exactly`, `Template.C58_failed_load_without_box_changes_nothing`, `Template.C58_failed_new_changes_nothing`, `Template.C59_rendering_again_partial`, `Template.C59_rendering_nil_again`, `Template.C59_rendering_with_loops_again_partial`, `Template.C59_old_counters_do_not_matter_partial`, `Template.C60_execute_does_not_panic`, `CollectionConc.C61_nothing_is_missed_while_appending_partial`, `Language.C62_language_from_string`, `Language.C62_exported_file`, `Template.C63_string_lists_elements`, `Template.C63_goString_lists_elements`, `Template.C63_clone_prints_alike`, `Template.C64_clone_is_a_tree`, `Template.C64_clone_renders_the_same`, `Template.C64_clone_renders_the_same_without_loops`, `Template.C64_other_data_are_untouched`, `Template.C64_clone_protects_the_original`, `V1.Cache.C65_get_reflects_latest_set`, `V1.Cache.C65_get_exact_without_eviction`, `V1.Cache.C65_verify_keeps_exactly_valid`, `V1.Cache.C65_never_panics`, `V1.Cache.C66_same_answers_without_eviction_partial`, `V1.CacheConc.C67_returned_value_was_set`, `V1.CacheConc.C68_present_keys_are_tracked_partial`, `V1.Language.C69_get_is_last_written`, `V1.Language.C69_get_without_write`, `V1.Language.C69_without_map`, `V1.Dataset.C70_getBool`, `V1.Dataset.C70_getInt`, `V1.Dataset.C70_getFloat`, `V1.Dataset.C70_printing`, `V1.Dataset.C71_reachable_heaps_are_well_formed`, `V1.Dataset.C72_clone_terminates`, `V1.Dataset.C72_clone_gives_same_answers`, `V1.Dataset.C72_clone_is_not_affected`, `V1.Dataset.C72_original_is_not_affected`, `V1.Template.C73_text_is_read_uniquely`, `V1.Template.C73_error_iff_unbalanced`, `V1.Template.C73_new_iff_balanced`, `V1.Template.C73_compile_builds_document`, `V1.Template.C73_load_builds_document`, `V1.Template.C73_failed_load`, `V1.Template.C74_execute_meets_specification`, `V1.Template.C74_execute_is_deterministic`, `V1.Template.C74_plain_text_renders_itself`, `V1.Template.C74_injected_text_is_verbatim`, `V1.Template.C75_execute_ends`, `V1.Template.C76_execute_does_not_panic_partial`, `Language.C77_entries_come_from_calls`, `Language.C77_answers_come_from_calls`, `Language.C77_last_writer_wins`, `Language.C77_undisturbed_entry`, `Language.C77_last_name_wins`, `Language.C78_calls_without_text_loads_are_atomic_partial`, `Template.C79_unloaded_template_says_so`, `Template.C80_panics_exactly`, `Template.C80_text_or_panic`, `Template.C80_panic_needs_nil_element`, `Template.C80_loop_over_nil_element_gives_no_text`, `CacheConc.C81_serial_calls_as_by_one_goroutine`, `CacheConc.C81_same_entries`, `CollectionConc.C82_calls_in_turns_as_in_sequence`, `CollectionConc.C82_next_call_comes_to_its_end`, `CollectionConc.C82_after_removal_from_empty_nothing_more`, `V1.CacheConc.C83_serial_calls_as_by_one_goroutine`, `V1.CacheConc.C83_same_entries`, `Nested.C84_layered_data_never_deadlocks_partial`, `Nested.C84_layered_calls_end_partial`, `Nested.C84_mutual_references_deadlock`, `Nested.C84_no_cycle_at_any_moment_deadlocks`, `Nested.C84_panic_under_lock_deadlocks`, `Nested.C85_private_data_is_protected`, `Nested.C85_elements_are_protected_partial`, `Nested.C86_get_undisturbed`, `Nested.C86_getData_undisturbed`, `Nested.C87_get_at_one_step_partial`, `Template.C88_built_templates_are_usable`, `Template.C88_lookup`, `Template.C88_seen`, `Template.C88_execute`, `Template.C88_execute_panics_exactly`, `Template.C88_execute_never_ends_exactly`, `Template.C88_execute_ends`, `Template.C88_not_loaded`, `Template.C88_added_template_is_a_box`, `Template.C88_added_template_sees_receiver`, `Template.C88_other_templates`, `Template.C89_self_contained_part_partial`, `Template.C90_lookup_never_returns_exactly`, `Template.C90_lookup_returns_partial`, `V1.Template.C91_built_templates_are_usable`, `V1.Template.C91_execute`, `V1.Template.C91_execute_panics_exactly`, `V1.Template.C91_execute_is_deterministic`, `V1.Template.C91_execute_ends`, `V1.Template.C91_added_template_is_a_box`, `V1.Template.C91_other_templates`, `Xml.C92_decoder_reads_documents`, `Xml.C92_one_meaning`, `Xml.C92_load_document`, `Xml.C92_load_fails_exactly`, `Xml.C92_v1_load`, `Dataset.C93_integer_is_nearest`, `Dataset.C93_exact`, `Dataset.C93_there_and_back`, `Dataset.C93_order`, `Dataset.C93_same_truth`, `Dataset.C93_float32`, `V1.Dataset.C93_v1`, `Regexp.C94_match_is_the_element`, `Regexp.C94_first_pass`, `Regexp.C94_v1_match_is_the_element`, `Regexp.C94_v1_first_pass`, `Regexp.C94_no_unknown_match`, `CacheWords.C95_never_panics`, `Zero.C96_table_literal_partial`, `Zero.C96_table_literal_read_only_partial`, `Zero.C96_load_into_literal_blocks`, `Template.C97_goroutines_do_not_disturb_each_other_partial`, `Template.C97_rows_at_two_places_are_disturbed`, `CacheValidator.C98_no_call_blocks`, `CacheValidator.C98_only_validators_panic`, `CacheValidator.C98_get_returns_last_set_before`, `CacheValidator.C98_nothing_escapes_eviction`, `CacheValidator.C98_validators_that_only_answer`, `CacheValidator.C98_refreshed_data_are_not_returned`, `CacheValidator.C98_refreshed_data_are_deleted`, `CacheValidator.C98_get_of_own_key_never_ends`, `CacheValidator.C98_panic_in_get`, `CacheValidator.C98_uninstalled_during_verify`, `V1.Cache.C99_capacity_and_lost`, `V1.Cache.C99_documented_limit_partial`, `V1.Cache.C99_clean_evicts_lru_partial`, `V1.Cache.C99_set_evicts_lru_partial`, `V1.Cache.C99_unbounded_with_verify`, `Page.C100_execute_gives_the_page`, `Page.C100_execute_literal`, `Page.C100_the_page_exists`, `Page.C100_execute_ends_with_the_page`, `V1.CacheValidator.C101_no_call_blocks`, `V1.CacheValidator.C101_after_a_panic_of_clean_all_calls_block`, `V1.CacheValidator.C101_only_validators_panic`, `V1.CacheValidator.C101_get_returns_last_set_before`, `V1.CacheValidator.C101_nothing_escapes_eviction`, `V1.CacheValidator.C101_validators_that_only_answer`, `V1.CacheValidator.C101_refreshed_data_are_not_returned`, `V1.CacheValidator.C101_refreshed_data_are_deleted`, `V1.CacheValidator.C101_uninstalled_during_verify`, `Slices.C102_collections_are_lists`, `Slices.C102_others_do_not_disturb`, `Slices.C102_clone_is_independent`, `Slices.C102_copies_by_assignment_are_disturbed`, `V1.Page.C103_execute_gives_the_page`, `V1.Page.C103_content_exists`, `V1.Page.C103_same_content_same_page`, `CacheConc.C104_races_exactly`, `CacheConc.C104_steps_write_only_their_cells`, `CacheConc.C104_steps_depend_only_on_their_cells`, `CacheConc.C104_considerate_programs_never_race`, `CacheConc.C104_two_gets_race`, `CacheConc.C104_get_and_setTTL_race`, `CacheConc.C104_verify_races`, `CacheConc.C104_assignments_race`, `V1.CacheConc.C105_races_exactly`, `V1.CacheConc.C105_steps_write_only_their_cells`, `V1.CacheConc.C105_steps_depend_only_on_their_cells`, `V1.CacheConc.C105_considerate_programs_never_race`, `V1.CacheConc.C105_considerate_programs_keep_the_order`, `V1.CacheConc.C105_get_races_with_every_change`, `V1.CacheConc.C105_two_gets_race`, `V1.CacheConc.C105_sets_with_limit_race`, `V1.CacheConc.C105_verify_races`, `V1.CacheConc.C105_assignments_race`, `LangRace.C106_entries_never_race`, `LangRace.C106_no_race_if_names_are_set_before`, `LangRace.C106_accesses_are_those_of_the_calls`, `LangRace.C106_one_goroutine_alone`, `LangRace.C106_version_1_races_exactly`, `Nested.C107_histories_are_linearizable`, `V1.Template.C108_same_skeleton_compile`, `V1.Template.C108_same_skeleton_render`, `V1.Template.C108_comment_leaves_no_trace`, `V1.Template.C108_end_of_line_is_swallowed`, `V1.Page.C109_clone_renders_the_same`, `V1.Page.C109_clone_is_a_snapshot`, `V1.Page.C109_clone_protects_the_data`, `Versions.C110_same_page`, `Versions.C110_same_text`, `CacheFiles.C111_never_out_of_date_partial`, `CacheFiles.C111_verified_cache_partial`, `CacheFiles.C111_served_exactly`, `CacheFiles.C111_unchanged_file_is_served`, `CacheFiles.C111_concurrent_never_out_of_date_partial`, `CacheFiles.C111_v1_never_out_of_date_partial`, `CacheFiles.C111_v1_served_exactly`, `V1.Zero.C112_cache_literal_partial`, `V1.Zero.C112_flushed_literal`, `V1.Zero.C112_set_into_literal_blocks`, `V1.Template.C113_each_gets_its_own_page`, `Template.C114_each_as_if_alone`, `Template.C114_order_does_not_matter`, `Template.C114_while_others_work`, `Template.C114_no_races`, `V1.Template.C115_only_named_boxes_matter`, `V1.Template.C115_box_more`, `V1.Template.C115_place_of_boxes`, `V1.Template.C115_names_from_data`, `V1.Template.C115_same_look_same_page`, `V1.Template.C115_every_name_counts`, `Template.C116_same_look_same_page`, `Template.C116_same_places_same_page`, `Template.C116_place_of_boxes`, `Template.C116_same_text`, `Template.C116_every_name_counts`, `V1.Template.C117_same_data_same_page`, `V1.Template.C117_set_not_looked_up`, `V1.Template.C117_del_not_looked_up`, `Template.C118_unseen_entry`, `Template.C118_set_unseen`, `Template.C118_del_unseen`, `Template.C118_set_unseen_panic`, `Template.C118_set_unseen_ends`, `Template.C118_del_unseen_panic`, `Template.C118_del_unseen_ends`, `Template.C118_every_entry_counts`.

**Quot.sound, propext** (109 theorems): `Cache.C03_deadlines`, `Cache.C03_set_restarts`, `Cache.C03_setTTL_only_ttl`, `Cache.C10_flush_like_fresh_partial`, `Cache.C10_flush_like_fresh_unlimited_partial`, `Cache.C11_key_isolation`, `CacheConc.C13_verify_looks_at_keys_of_its_time`, `Lock.C14_sequential_execution_unique`, `Dataset.C15_set_del_total`, `Dataset.C16_get_follows_path`, `Dataset.C16_get_only_follows_path`, `Dataset.C16_get_in_general`, `Dataset.C16_get_composes`, `Dataset.C16_index_notation`, `Dataset.C16_get_element`, `Dataset.C18_exact_type_getters`, `Dataset.C20_string_is_deterministic`, `Dataset.C20_string_is_the_text_of_every_order`, `Dataset.C20_lists_every_entry_once_sorted`, `Dataset.C20_lists_every_element_in_order`, `Dataset.C20_string_panics_only_around_nothing`, `Language.C20_language_printing_order_independent`, `Language.C20_language_string_lists_entries`, `Language.C20_language_goString_lists_entries`, `Dataset.C21_clone_gives_same_answers`, `Dataset.C21_clone_has_same_kind`, `Dataset.C23_no_shared_dataset_or_collection_partial`, `Dataset.C25_collection_is_a_sequence`, `Dataset.C25_specification_is_deterministic`, `Dataset.C26_last_dataset_wins`, `Dataset.C26_getData_panics`, `Dataset.C26_typed_lookups`, `Dataset.C26_ts_typed_lookups_exactly`, `CollectionConc.C27_panic_blocks_changes`, `Dataset.C28_empty_collectionTS_wedges`, `Dataset.C29_wrapper_is_transparent`, `Dataset.C29_wrapper_prints_as_wrapped`, `Dataset.C29_clone_of_wrapper`, `Language.C30_name_and_language_unique`, `Language.C31_ignored_lines`, `Language.C33_error_iff_long_line`, `Language.C36_load_sets_document`, `Language.C37_table_not_affected`, `Language.C37_copy_not_affected`, `Template.C38_meta_is_unique`, `Template.C41_box_has_all_its_names`, `Template.C45_compiled_templates`, `Template.C45_value_is_unique`, `Template.C49_unmet_condition_renders_positive_branch`, `Template.C51_nil_data_panics`, `CollectionConc.C61_unshift_hides_an_element`, `Language.C62_language_from_xml`, `Template.C63_empty_template`, `V1.Cache.C66_same_answers_without_verify_partial`, `V1.CacheConc.C68_blocked_after_panic`, `V1.Language.C69_same_as_version2`, `V1.Language.C69_loads_as_version2`, `V1.Language.C69_constructors_as_version2`, `V1.Dataset.C70_get_follows_path`, `V1.Dataset.C70_getInt_of_large_unsigned`, `V1.Dataset.C70_exact_type_getters`, `V1.Dataset.C70_getString`, `V1.Dataset.C70_same_reads_as_version2`, `V1.Dataset.C70_conversions_that_differ`, `V1.Dataset.C71_collection_is_a_sequence`, `V1.Dataset.C71_last_dataset_wins`, `V1.Dataset.C71_typed_lookups`, `V1.Dataset.C71_lookups_as_version2`, `V1.Dataset.C71_same_history_as_version2`, `V1.Dataset.C72_no_shared_dataset_or_collection`, `V1.Template.C73_get_template_finds_own_boxes`, `V1.Template.C73_string_lists_elements`, `V1.Template.C73_string_of_new_template_panics`, `Language.C77_names_come_from_calls`, `Template.C80_path_through_nil_element`, `Nested.C85_two_wrappers_do_not_protect`, `Nested.C85_clone_of_a_collection_is_not_protected`, `Nested.C86_set_del_undisturbed`, `Nested.C86_collection_undisturbed`, `Nested.C87_set_del_at_one_step`, `Nested.C87_paths_behind_elements_are_not_atomic`, `Template.C88_add`, `Template.C90_cycle_never_returns`, `Template.C90_clone_makes_lookup_endless`, `CacheWords.C95_percentages_do_not_overflow`, `CacheWords.C95_small_products`, `CacheWords.C95_v1_percentages_do_not_overflow`, `Zero.C96_made_tables_return`, `Zero.C96_made_caches`, `Zero.C96_cache_literal_partial`, `Template.C97_steps_of_one_goroutine_are_execute`, `Template.C97_steps_of_one_goroutine_panic_like_execute`, `CacheValidator.C98_steps_do_not_matter`, `V1.CacheValidator.C101_steps_do_not_matter`, `V1.CacheValidator.C101_get_of_own_key_never_ends`, `V1.CacheValidator.C101_panic_in_get`, `V1.Page.C103_printed_form`, `CacheConc.C104_count_depends_only_on_its_cells`, `V1.CacheConc.C105_count_depends_only_on_its_cells`, `LangRace.C106_name_races_exactly`, `LangRace.C106_language_races_exactly`, `LangRace.C106_version_1_accesses_are_those_of_the_calls`, `Nested.C107_paths_behind_elements_are_not_linearizable`, `V1.Page.C109_clone_has_the_same_content`, `V1.Page.C109_clone_prints_the_same`, `Versions.C110_same_reading`, `V1.Template.C113_looks_only_at_its_data`, `Template.C116_names_matter`, `V1.Template.C117_printed_data_matter`.

**no axioms** (14 theorems): `Cache.C04_small_limit_counterexample`, `Cache.C05_expire_counterexample`, `Cache.C06_large_percentage_panics`, `Cache.C07_expired_not_counted`, `Cache.C09_expired_not_counted`, `Cache.C10_flush_empties`, `Cache.C10_flush_counterexample`, `Template.C44_two_characters`, `V1.Cache.C66_verify_counterexample`, `V1.Cache.C99_verify_counterexample`, `V1.Cache.C99_small_limit_counterexample`, `LangRace.C106_writes_change_only_their_cell`, `V1.Template.C108_two_characters`, `CacheFiles.C111_out_of_date`.

**propext** (80 theorems): `Cache.C02_invalid_is_reported`, `CacheConc.C13_condemned_only_if_invalid`, `CacheConc.C13_completed_set_can_be_lost`, `CacheConc.C13_verify_deletes_what_was_set_after_flush`, `Lock.C14_order_respects_real_time`, `Dataset.C15_get_after_set`, `Dataset.C15_get_after_del`, `Dataset.C17_path_key_is_lost`, `Dataset.C18_getString`, `Dataset.C19_large_unsigned_wraps`, `Dataset.C23_slices_and_languages_are_shared`, `Dataset.C25_pop_and_shift_panic_exactly_when_empty`, `Dataset.C26_ts_typed_lookups_partial`, `Dataset.C26_ts_lookups_differ`, `CollectionConc.C27_lookup_panics`, `Dataset.C28_nil_xdatasetTS_wedges`, `Language.C34_load_merges`, `Xml.C35_export_may_not_load`, `Xml.C35_entity_in_name`, `Xml.C35_carriage_return`, `Xml.C35_value_adds_entries`, `Xml.C35_status_without_entry`, `Language.C36_failed_load_changes_nothing`, `Template.C38_no_meta_in_literals`, `Template.C43_stray_comment_start`, `Template.C48_names_by_priority`, `Template.C52_recursive_box_diverges`, `Template.C54_clone_is_not_independent`, `Template.C55_sharing_matters_with_loops`, `Template.C58_failed_load_changes_template`, `Template.C59_second_rendering_differs`, `Language.C62_language_file_is_its_text`, `Language.C62_language_unreadable_file`, `Template.C62_template_file`, `Template.C64_shared_data_render_differently`, `V1.CacheConc.C68_present_key_not_tracked`, `V1.CacheConc.C68_clean_panics`, `V1.Dataset.C71_get_after_set`, `V1.Dataset.C71_get_after_del`, `V1.Dataset.C71_pop_and_shift_panic_exactly_when_empty`, `V1.Dataset.C72_slices_and_languages_are_shared`, `V1.Template.C73_no_meta_in_literals`, `V1.Template.C73_outer_boxes_are_not_seen`, `V1.Template.C73_add_template`, `V1.Template.C73_files`, `V1.Template.C75_recursive_box_ends`, `V1.Template.C75_cyclic_data`, `V1.Template.C76_execute_panics`, `Language.C78_text_is_seen_in_parts`, `Language.C78_names_of_documents_mix`, `Language.C78_getXML_reads_half_a_document`, `Template.C80_loop_panics`, `Nested.C87_collection_at_one_step`, `Template.C89_adding_elsewhere_changes_rendering`, `V1.Template.C91_lookup`, `V1.Template.C91_add`, `V1.Template.C91_not_loaded`, `V1.Template.C91_self_reference_never_ends`, `Dataset.C93_large_integers_are_rounded`, `Regexp.C94_expressions_are_valid`, `CacheWords.C95_negative_percentage_panics`, `CacheWords.C95_large_percentage_evicts_nothing`, `CacheWords.C95_v1_negative_percentage_panics`, `Zero.C96_empty_wrapper`, `Zero.C96_full_wrapper`, `Zero.C96_collection`, `Page.C100_depth`, `CacheConc.C104_what_the_mutex_keeps_apart`, `LangRace.C106_answers_depend_on_the_cells_read`, `LangRace.C106_version_1_answers_depend_on_the_cells_read`, `V1.Template.C108_stray_openers`, `V1.Page.C109_slices_are_shared`, `Versions.C110_differences`, `Versions.C110_differences_of_execute`, `V1.Zero.C112_made_caches`, `V1.Zero.C112_panicking_clean_blocks`, `V1.Template.C113_changed_data_are_mixed`, `Template.C114_common_rows_are_mixed`, `Template.C118_printed_data_matter`, `Template.C118_cycles_matter`.

<!-- axioms end -->

### Go functions and the definitions that model them

<!-- coverage begin -->
| Go | function | definitions |
|----|----------|-------------|
| `v2/xcache.go:47-58` | NewXCache | `Cache.new`, `CacheValidator.new` |
| `v2/xcache.go:64-78` | XCache.Set | `Cache.set`, `CacheConc.set`, `CacheConc.setRaw`, `CacheRace.Move.held`, `CacheValidator.set`, `CacheWords.set`, `Zero.cset` |
| `v2/xcache.go:84-91` | XCache.SetTTL | `Cache.setTTL`, `CacheRace.Move.held`, `CacheValidator.setTTL`, `Zero.csetTTL` |
| `v2/xcache.go:95-107` | XCache.removeFromPile | `Cache.removeFromPile` |
| `v2/xcache.go:110-115` | XCache.mGet | `Cache.get`, `CacheRace.Move.held`, `CacheValidator.mGet`, `Zero.cget` |
| `v2/xcache.go:121-175` | XCache.Get | `Cache.get`, `Cache.invalid`, `Cache.past`, `CacheConc.PC`, `CacheFiles.Goes`, `CacheRace.Move.held`, `CacheValidator.ask`, `CacheValidator.get`, `CacheValidator.getDrop`, `CacheWords.clean`, `Zero.cget` |
| `v2/xcache.go:178-184` | XCache.Del | `Cache.del`, `CacheConc.del`, `CacheRace.Move.held`, `CacheRace.delCells`, `CacheValidator.del`, `CacheWords.clean`, `Zero.cdel` |
| `v2/xcache.go:187-192` | XCache.Count | `Cache.count`, `CacheRace.Move`, `CacheRace.Move.held`, `CacheValidator.count`, `CacheWords.clean`, `CacheWords.verify`, `Zero.cstep` |
| `v2/xcache.go:198-227` | XCache.mClean | `Cache.cleanNum`, `Cache.evictLoop`, `Cache.mClean`, `Cache.past`, `Cache.sweep`, `CacheConc.mClean`, `CacheRace.cleanCells`, `CacheSections.cleanStep`, `CacheValidator.clean`, `CacheWords.cleanNum`, `CacheWords.mClean`, `CacheWords.verify`, `Zero.mClean` |
| `v2/xcache.go:233-237` | XCache.Clean | `Cache.clean`, `CacheRace.Move.held`, `CacheValidator.clean` |
| `v2/xcache.go:242-264` | XCache.Verify | `Cache.verify`, `Cache.verifyLoop`, `CacheConc.PC`, `CacheConc.ranged`, `CacheRace.pickCells`, `CacheValidator.ask`, `CacheValidator.verify`, `CacheValidator.verifyLoop`, `CacheWords.verify`, `Zero.verify`, `Zero.verifyLoop` |
| `v2/xcache.go:268-273` | XCache.Flush | `Cache.flush`, `CacheRace.Cell`, `CacheRace.Move.held`, `CacheValidator.flush` |
| `v2/xdataset.go:20-44` | NewXDataset | `Dataset.buildAnys`, `Dataset.buildEntries`, `Dataset.buildVal`, `Dataset.newXDataset` |
| `v2/xdataset.go:47-54` | XDataset.String | `Dataset.sprint`, `Nested.datasetStep` |
| `v2/xdataset.go:57-64` | XDataset.GoString | `Dataset.goSprint`, `Nested.datasetStep` |
| `v2/xdataset.go:67-69` | XDataset.Set | `Dataset.set`, `Nested.datasetStep` |
| `v2/xdataset.go:72-102` | XDataset.Get | `Dataset.asCollection`, `Dataset.asDataset`, `Dataset.get`, `Dataset.getSegs`, `Nested.Instr.isLock`, `Nested.datasetStep`, `Nested.getStep`, `TemplateConc.getP`, `TemplateConc.lookP` |
| `v2/xdataset.go:105-112` | XDataset.GetDataset | `Dataset.getDataset`, `Nested.datasetStep` |
| `v2/xdataset.go:115-122` | XDataset.GetCollection | `Dataset.getCollection`, `Nested.datasetStep` |
| `v2/xdataset.go:125-133` | XDataset.GetString | `Dataset.getString`, `Nested.datasetStep` |
| `v2/xdataset.go:138-189` | XDataset.GetBool | `Dataset.getBool`, `Dataset.toBool` |
| `v2/xdataset.go:194-249` | XDataset.GetInt | `Dataset.getInt`, `Dataset.toInt` |
| `v2/xdataset.go:252-307` | XDataset.GetFloat | `Dataset.getFloat`, `Dataset.toFloat` |
| `v2/xdataset.go:310-318` | XDataset.GetTime | `Dataset.getTime` |
| `v2/xdataset.go:321-329` | XDataset.GetStringCollection | `Dataset.getSlice` |
| `v2/xdataset.go:332-340` | XDataset.GetBoolCollection | `Dataset.getSlice` |
| `v2/xdataset.go:343-351` | XDataset.GetIntCollection | `Dataset.getSlice` |
| `v2/xdataset.go:356-365` | XDataset.GetFloatCollection | `Dataset.getSlice` |
| `v2/xdataset.go:368-375` | XDataset.GetTimeCollection | `Dataset.getSlice` |
| `v2/xdataset.go:378-380` | XDataset.Del | `Dataset.del`, `Nested.datasetStep` |
| `v2/xdataset.go:383-397` | XDataset.Clone | `Dataset.cloneVal`, `Nested.cloneable`, `Nested.datasetStep` |
| `v2/xdatasetcollection.go:17-24` | NewXDatasetCollection | `Dataset.buildMaps` |
| `v2/xdatasetcollection.go:27-34` | XDatasetCollection.String | `Dataset.colText`, `Dataset.sprint` |
| `v2/xdatasetcollection.go:37-39` | XDatasetCollection.GoString | `Dataset.goSprint` |
| `v2/xdatasetcollection.go:42-44` | XDatasetCollection.Unshift | `Dataset.unshift`, `Slices.unshift` |
| `v2/xdatasetcollection.go:47-51` | XDatasetCollection.Shift | `Dataset.shift`, `Slices.shift` |
| `v2/xdatasetcollection.go:54-56` | XDatasetCollection.Push | `Dataset.push`, `Slices.push`, `TemplateConc.pushP`, `TemplateExec.pushSt` |
| `v2/xdatasetcollection.go:59-63` | XDatasetCollection.Pop | `Dataset.pop`, `Slices.pop`, `TemplateConc.popP`, `TemplateExec.popSt` |
| `v2/xdatasetcollection.go:66-68` | XDatasetCollection.Count | `Dataset.count` |
| `v2/xdatasetcollection.go:71-76` | XDatasetCollection.Get | `Dataset.colGet`, `Slices.get` |
| `v2/xdatasetcollection.go:79-87` | XDatasetCollection.GetData | `Dataset.getData`, `Dataset.getDataL`, `TemplateConc.getDataP`, `TemplateConc.stackGetP`, `TemplateExec.stackGet` |
| `v2/xdatasetcollection.go:90-98` | XDatasetCollection.GetDataString | `Dataset.getDataString`, `TemplateConc.stackStringP`, `TemplateExec.stackString` |
| `v2/xdatasetcollection.go:101-108` | XDatasetCollection.GetDataBool | `Dataset.getDataBool` |
| `v2/xdatasetcollection.go:111-118` | XDatasetCollection.GetDataInt | `Dataset.getDataInt` |
| `v2/xdatasetcollection.go:121-128` | XDatasetCollection.GetDataFloat | `Dataset.getDataFloat` |
| `v2/xdatasetcollection.go:131-138` | XDatasetCollection.GetDataTime | `Dataset.getDataTime` |
| `v2/xdatasetcollection.go:141-151` | XDatasetCollection.GetCollection | `Dataset.getDataCollection` |
| `v2/xdatasetcollection.go:154-160` | XDatasetCollection.Clone | `Dataset.cloneVal`, `Nested.cloneElems`, `Slices.clone` |
| `v2/xdatasetcollectionts.go:17-26` | XDatasetCollectionTS.String | `Dataset.sprint`, `Nested.Instr.isLock`, `Nested.callStep` |
| `v2/xdatasetcollectionts.go:29-31` | XDatasetCollectionTS.GoString | `Dataset.goSprint` |
| `v2/xdatasetcollectionts.go:34-38` | XDatasetCollectionTS.Unshift | `CollectionConc.Reach`, `Dataset.unshift`, `Nested.changeStep`, `Nested.colMode`, `Slices.unshift`, `TSMethods.colMethod` |
| `v2/xdatasetcollectionts.go:41-47` | XDatasetCollectionTS.Shift | `CollectionConc.Reach`, `Dataset.shift`, `Nested.changeStep`, `Nested.colMode`, `Slices.shift`, `TSMethods.colMethod` |
| `v2/xdatasetcollectionts.go:50-54` | XDatasetCollectionTS.Push | `CollectionConc.Reach`, `Dataset.push`, `Nested.changeStep`, `Nested.colMode`, `Slices.push`, `TSMethods.colMethod` |
| `v2/xdatasetcollectionts.go:57-63` | XDatasetCollectionTS.Pop | `CollectionConc.Reach`, `Dataset.pop`, `Nested.changeStep`, `Nested.colMode`, `Slices.pop`, `TSMethods.colMethod` |
| `v2/xdatasetcollectionts.go:66-70` | XDatasetCollectionTS.Count | `Dataset.count`, `Nested.changeStep`, `Nested.colMode`, `TSMethods.colMethod` |
| `v2/xdatasetcollectionts.go:73-80` | XDatasetCollectionTS.Get | `Dataset.colGet`, `Nested.changeStep`, `Nested.colMode`, `Slices.get`, `TSMethods.colMethod` |
| `v2/xdatasetcollectionts.go:83-97` | XDatasetCollectionTS.GetData | `Dataset.getData`, `Nested.Instr.isLock` |
| `v2/xdatasetcollectionts.go:100-106` | XDatasetCollectionTS.GetDataString | `Dataset.getDataStringTS`, `Nested.Call.code` |
| `v2/xdatasetcollectionts.go:109-116` | XDatasetCollectionTS.GetDataBool | `Dataset.getDataBool` |
| `v2/xdatasetcollectionts.go:119-126` | XDatasetCollectionTS.GetDataInt | `Dataset.getDataInt` |
| `v2/xdatasetcollectionts.go:129-136` | XDatasetCollectionTS.GetDataFloat | `Dataset.getDataFloat` |
| `v2/xdatasetcollectionts.go:139-146` | XDatasetCollectionTS.GetDataTime | `Dataset.getDataTime` |
| `v2/xdatasetcollectionts.go:149-156` | XDatasetCollectionTS.GetCollection | `Dataset.getDataCollectionTS` |
| `v2/xdatasetcollectionts.go:159-165` | XDatasetCollectionTS.Clone | `Dataset.cloneVal`, `Nested.callStep`, `Nested.cloneElems`, `Slices.clone` |
| `v2/xdatasetts.go:16-21` | NewXDatasetTS | `Dataset.newXDatasetTS`, `Dataset.target` |
| `v2/xdatasetts.go:24-28` | XDatasetTS.String | `Dataset.sprint`, `Nested.Op.mode` |
| `v2/xdatasetts.go:31-35` | XDatasetTS.GoString | `Dataset.goSprint`, `Nested.Op.mode` |
| `v2/xdatasetts.go:38-42` | XDatasetTS.Set | `Dataset.set`, `Nested.Op.deferred`, `Nested.Op.mode`, `TSMethods.tsMethod` |
| `v2/xdatasetts.go:45-49` | XDatasetTS.Get | `Dataset.getSegs`, `Nested.Op.mode`, `TSMethods.tsMethod`, `TemplateConc.lookP` |
| `v2/xdatasetts.go:52-56` | XDatasetTS.GetDataset | `Nested.Op.mode`, `TSMethods.tsMethod` |
| `v2/xdatasetts.go:59-63` | XDatasetTS.GetCollection | `Nested.Op.mode`, `TSMethods.tsMethod` |
| `v2/xdatasetts.go:66-70` | XDatasetTS.GetString | `Nested.Op.mode`, `TSMethods.tsMethod` |
| `v2/xdatasetts.go:75-79` | XDatasetTS.GetBool | `Nested.Op.mode`, `TSMethods.tsMethod` |
| `v2/xdatasetts.go:84-88` | XDatasetTS.GetInt | `Nested.Op.mode`, `TSMethods.tsMethod` |
| `v2/xdatasetts.go:91-95` | XDatasetTS.GetFloat | `Nested.Op.mode`, `TSMethods.tsMethod` |
| `v2/xdatasetts.go:98-102` | XDatasetTS.GetTime | `Nested.Op.mode`, `TSMethods.tsMethod` |
| `v2/xdatasetts.go:105-109` | XDatasetTS.GetStringCollection | `Nested.Op.mode`, `TSMethods.tsMethod` |
| `v2/xdatasetts.go:112-116` | XDatasetTS.GetBoolCollection | `Nested.Op.mode`, `TSMethods.tsMethod` |
| `v2/xdatasetts.go:119-123` | XDatasetTS.GetIntCollection | `Nested.Op.mode`, `TSMethods.tsMethod` |
| `v2/xdatasetts.go:126-130` | XDatasetTS.GetFloatCollection | `Nested.Op.mode`, `TSMethods.tsMethod` |
| `v2/xdatasetts.go:133-137` | XDatasetTS.GetTimeCollection | `Nested.Op.mode`, `TSMethods.tsMethod` |
| `v2/xdatasetts.go:140-144` | XDatasetTS.Del | `Dataset.del`, `Nested.Op.deferred`, `Nested.Op.mode`, `TSMethods.tsMethod` |
| `v2/xdatasetts.go:147-153` | XDatasetTS.Clone | `Dataset.cloneVal`, `Dataset.target`, `Nested.Op.deferred`, `Nested.Op.mode` |
| `v2/xlanguage.go:26-28` | NewXLanguage | `Language.new`, `LanguageAlias.World.new` |
| `v2/xlanguage.go:33-40` | NewXLanguageFromXMLFile | `Files.blank`, `Files.newFromXMLFile`, `Files.unlessError` |
| `v2/xlanguage.go:45-52` | NewXLanguageFromXMLString | `Files.blank`, `Files.newFromXML`, `Files.unlessError` |
| `v2/xlanguage.go:57-64` | NewXLanguageFromFile | `Files.blank`, `Files.newFromFile`, `Files.unlessError` |
| `v2/xlanguage.go:69-76` | NewXLanguageFromString | `Files.blank`, `Files.newFromString`, `Files.unlessError` |
| `v2/xlanguage.go:81-87` | XLanguage.LoadXMLFile | `Files.loadXMLFile` |
| `v2/xlanguage.go:92-124` | XLanguage.LoadXMLString | `Language.XEntry`, `Language.XLang`, `Language.loadXML`, `LanguageAlias.World.put`, `LanguageConc.nameAccesses`, `LanguageConc.sections`, `TSMethods.tsMethod`, `Xml.onStart`, `Zero.lstep`, `Zero.xmlLoop` |
| `v2/xlanguage.go:129-143` | XLanguage.LoadFile | `Files.loadFile`, `LanguageAlias.World.put` |
| `v2/xlanguage.go:148-178` | XLanguage.LoadString | `Language.loadLine`, `Language.loadString`, `Language.scan`, `LanguageAlias.World.put`, `LanguageConc.lineSection`, `LanguageConc.sections`, `LanguageRace.lineCode`, `LanguageRace.lineCode1`, `Scanner.Loads`, `Scanner.Scanner.new`, `TSMethods.tsMethod`, `Zero.lineEntry`, `Zero.loadLoop` |
| `v2/xlanguage.go:181-183` | XLanguage.SetName | `Language.setName`, `LanguageAlias.World.put`, `LanguageConc.nameAccesses`, `LanguageConc.sections` |
| `v2/xlanguage.go:186-188` | XLanguage.SetLanguage | `Language.setLanguage`, `LanguageAlias.World.put`, `LanguageConc.nameAccesses`, `LanguageConc.sections` |
| `v2/xlanguage.go:191-193` | XLanguage.GetName | `LanguageAlias.World.put`, `LanguageConc.nameAccesses`, `LanguageConc.sections` |
| `v2/xlanguage.go:196-198` | XLanguage.GetLanguage | `LanguageAlias.World.put`, `LanguageConc.nameAccesses`, `LanguageConc.sections` |
| `v2/xlanguage.go:201-205` | XLanguage.Set | `Language.set`, `LanguageAlias.World.put`, `LanguageConc.sections`, `TSMethods.tsMethod` |
| `v2/xlanguage.go:208-216` | XLanguage.Get | `Language.get`, `LanguageAlias.World.put`, `LanguageConc.sections`, `TSMethods.tsMethod` |
| `v2/xlanguage.go:219-223` | XLanguage.SetStatus | `Language.setStatus`, `LanguageAlias.World.put`, `LanguageConc.sections`, `TSMethods.tsMethod` |
| `v2/xlanguage.go:226-234` | XLanguage.GetStatus | `Language.getStatus`, `LanguageAlias.World.put`, `LanguageConc.sections`, `TSMethods.tsMethod` |
| `v2/xlanguage.go:237-242` | XLanguage.Del | `Language.del`, `LanguageAlias.World.put`, `LanguageConc.sections`, `TSMethods.tsMethod` |
| `v2/xlanguage.go:245-253` | XLanguage.GetEntries | `Language.getEntries`, `LanguageAlias.World.getEntries`, `LanguageConc.sections`, `TSMethods.tsMethod` |
| `v2/xlanguage.go:256-266` | XLanguage.GetXML | `Language.getXML`, `Language.xmlEntry`, `LanguageConc.nameAccesses`, `LanguageConc.sections`, `TSMethods.tsMethod` |
| `v2/xlanguage.go:269-278` | XLanguage.String | `Dataset.sprint`, `Language.toString`, `LanguageConc.sections`, `Nested.callStep`, `TSMethods.tsMethod` |
| `v2/xlanguage.go:281-290` | XLanguage.GoString | `Dataset.goSprint`, `Language.goString`, `LanguageConc.sections` |
| `v2/xtemplate.go:70-72` | XTemplateParam.Clone | `TemplateExec.clone` |
| `v2/xtemplate.go:87-89` | NewXTemplate | `Template.newTpl` |
| `v2/xtemplate.go:92-99` | NewXTemplateFromFile | `Files.newFromFile` |
| `v2/xtemplate.go:102-109` | NewXTemplateFromString | `Template.newFromString` |
| `v2/xtemplate.go:112-126` | XTemplate.LoadFile | `Files.loadFile`, `Template.loadString` |
| `v2/xtemplate.go:129-131` | XTemplate.LoadString | `Regexp.codeV1`, `Template.loadString` |
| `v2/xtemplate.go:134-273` | XTemplate.compile | `Regexp.code`, `Regexp.codeV1`, `Regexp.findAll`, `Regexp.firstPassWith`, `Regexp.paramOf`, `Regexp.parse`, `Regexp.sub`, `Template.Pass`, `Template.boxClass`, `Template.commentAt`, `Template.compile`, `Template.elemClass`, `Template.elementAt`, `Template.eol`, `Template.findAll`, `Template.firstPass`, `Template.langClass`, `Template.lex`, `Template.matchAt`, `Template.moveOut`, `Template.nameAt`, `Template.passLoop`, `Template.passStep`, `Template.register`, `Template.startAt`, `Template.stopAt`, `Template.untilClose` |
| `v2/xtemplate.go:276-282` | XTemplate.AddTemplate | `Template.addTemplate` |
| `v2/xtemplate.go:285-300` | XTemplate.GetTemplate | `Template.getTemplate`, `Template.getTemplateN` |
| `v2/xtemplate.go:303-316` | XTemplate.Execute | `TemplateConc.executeP`, `TemplateExec.execute`, `TemplateExec.langOf` |
| `v2/xtemplate.go:319-492` | XTemplate.injector | `TemplateConc.condGetP`, `TemplateConc.condNoneP`, `TemplateConc.condValueP`, `TemplateConc.doConditionP`, `TemplateConc.doDumpP`, `TemplateConc.doRangeP`, `TemplateConc.doReferenceP`, `TemplateConc.injectAllP`, `TemplateConc.injectItemP`, `TemplateConc.injectorP`, `TemplateConc.isEmptyP`, `TemplateConc.rangeLoopP`, `TemplateExec.condGet`, `TemplateExec.condNone`, `TemplateExec.condValue`, `TemplateExec.doCondition`, `TemplateExec.doDump`, `TemplateExec.doRange`, `TemplateExec.doReference`, `TemplateExec.injectAll`, `TemplateExec.injectItem`, `TemplateExec.injector`, `TemplateExec.pickRange`, `TemplateExec.rangeLoop`, `TemplateExec.twoNames` |
| `v2/xtemplate.go:495-505` | XTemplate.String | `Files.printParam`, `Files.toString` |
| `v2/xtemplate.go:508-518` | XTemplate.GoString | `Files.goPrintParam`, `Files.goString` |
| `v2/xtemplate.go:521-541` | XTemplate.Clone | `TemplateExec.clone` |
| `xcache.go:45-56` | NewXCache | `V1.Cache.new`, `V1.CacheValidator.new` |
| `xcache.go:62-76` | XCache.Set | `V1.Cache.set`, `V1.CacheConc.Obs`, `V1.CacheConc.set`, `V1.CacheConc.upd`, `V1.CacheRace.sizeCells`, `V1.CacheValidator.set`, `V1.Zero.set` |
| `xcache.go:79-91` | XCache.removeFromPile | `V1.Cache.removeFromPile` |
| `xcache.go:97-133` | XCache.Get | `V1.Cache.get`, `V1.CacheConc.Obs`, `V1.CacheRace.delCells`, `V1.CacheValidator.ask`, `V1.CacheValidator.get`, `V1.CacheValidator.getDrop`, `V1.Zero.get` |
| `xcache.go:136-142` | XCache.Del | `V1.Cache.del`, `V1.CacheConc.del`, `V1.CacheRace.delCells`, `V1.CacheValidator.del`, `V1.Zero.del` |
| `xcache.go:145-150` | XCache.Count | `V1.Cache.count`, `V1.CacheRace.Move`, `V1.CacheValidator.count`, `V1.Zero.step` |
| `xcache.go:156-187` | XCache.Clean | `V1.Cache.clean`, `V1.CacheConc.clean`, `V1.CacheRace.cleanCells`, `V1.CacheValidator.clean`, `V1.Zero.clean` |
| `xcache.go:192-210` | XCache.Verify | `V1.Cache.verify`, `V1.Cache.verifyLoop`, `V1.CacheConc.Obs`, `V1.CacheConc.ranged`, `V1.CacheRace.pickCells`, `V1.CacheValidator.ask`, `V1.CacheValidator.drop`, `V1.CacheValidator.verify`, `V1.CacheValidator.verifyLoop`, `V1.Zero.verify`, `V1.Zero.verifyLoop` |
| `xcache.go:214-219` | XCache.Flush | `V1.Cache.flush`, `V1.CacheRace.Cell`, `V1.CacheValidator.flush` |
| `xdataset.go:65-72` | XDataset.String | `V1.Dataset.sprint`, `V1.TemplateConc.sprintP` |
| `xdataset.go:75-82` | XDataset.GoString | `V1.Dataset.goSprint`, `V1.TemplateConc.goSprintP` |
| `xdataset.go:85-87` | XDataset.Set | `V1.Dataset.set` |
| `xdataset.go:90-120` | XDataset.Get | `V1.Dataset.asCollection`, `V1.Dataset.asDataset`, `V1.Dataset.get`, `V1.Dataset.getSegs`, `V1.TemplateConc.asCollectionP`, `V1.TemplateConc.asDatasetP`, `V1.TemplateConc.entriesP`, `V1.TemplateConc.getP` |
| `xdataset.go:123-130` | XDataset.GetDataset | `V1.Dataset.getDataset` |
| `xdataset.go:133-140` | XDataset.GetCollection | `V1.Dataset.getCollection` |
| `xdataset.go:143-151` | XDataset.GetString | `V1.Dataset.getString` |
| `xdataset.go:156-205` | XDataset.GetBool | `V1.Dataset.getBool`, `V1.Dataset.toBool` |
| `xdataset.go:210-259` | XDataset.GetInt | `V1.Dataset.getInt`, `V1.Dataset.toInt` |
| `xdataset.go:262-311` | XDataset.GetFloat | `V1.Dataset.getFloat`, `V1.Dataset.toFloat` |
| `xdataset.go:314-321` | XDataset.GetTime | `V1.Dataset.asTime`, `V1.Dataset.getTime` |
| `xdataset.go:324-331` | XDataset.GetStringCollection | `V1.Dataset.asSlice`, `V1.Dataset.getSlice` |
| `xdataset.go:334-341` | XDataset.GetBoolCollection | `V1.Dataset.asSlice`, `V1.Dataset.getSlice` |
| `xdataset.go:344-351` | XDataset.GetIntCollection | `V1.Dataset.asSlice`, `V1.Dataset.getSlice` |
| `xdataset.go:354-361` | XDataset.GetFloatCollection | `V1.Dataset.asSlice`, `V1.Dataset.getSlice` |
| `xdataset.go:364-371` | XDataset.GetTimeCollection | `V1.Dataset.asSlice`, `V1.Dataset.getSlice` |
| `xdataset.go:374-376` | XDataset.Del | `V1.Dataset.del` |
| `xdataset.go:379-393` | XDataset.Clone | `V1.Dataset.cloneVal` |
| `xdataset.go:452-459` | XDatasetCollection.String | `V1.Dataset.sprint`, `V1.TemplateConc.sprintP` |
| `xdataset.go:462-464` | XDatasetCollection.GoString | `V1.Dataset.goSprint`, `V1.TemplateConc.goSprintP` |
| `xdataset.go:467-469` | XDatasetCollection.Unshift | `V1.Dataset.unshift` |
| `xdataset.go:472-476` | XDatasetCollection.Shift | `V1.Dataset.shift` |
| `xdataset.go:479-481` | XDatasetCollection.Push | `V1.Dataset.push`, `V1.Template.pushSt` |
| `xdataset.go:484-488` | XDatasetCollection.Pop | `V1.Dataset.pop`, `V1.Template.popSt` |
| `xdataset.go:491-493` | XDatasetCollection.Count | `V1.Dataset.count`, `V1.TemplateConc.elemsP` |
| `xdataset.go:496-501` | XDatasetCollection.Get | `V1.Dataset.colGet`, `V1.Dataset.colGetAt`, `V1.TemplateConc.elemsP` |
| `xdataset.go:504-512` | XDatasetCollection.GetData | `V1.Dataset.getData`, `V1.Dataset.getDataL`, `V1.Template.stackGet`, `V1.TemplateConc.getDataP`, `V1.TemplateConc.stackGetP` |
| `xdataset.go:515-524` | XDatasetCollection.GetDataString | `V1.Dataset.getDataString`, `V1.Template.stackString`, `V1.TemplateConc.stackStringP` |
| `xdataset.go:527-534` | XDatasetCollection.GetDataBool | `V1.Dataset.getDataBool` |
| `xdataset.go:537-544` | XDatasetCollection.GetDataInt | `V1.Dataset.getDataInt` |
| `xdataset.go:547-554` | XDatasetCollection.GetDataFloat | `V1.Dataset.getDataFloat` |
| `xdataset.go:557-564` | XDatasetCollection.GetDataTime | `V1.Dataset.getDataTime` |
| `xdataset.go:567-574` | XDatasetCollection.GetCollection | `V1.Dataset.getDataCollection`, `V1.Template.stackCollection`, `V1.TemplateConc.stackCollectionP` |
| `xdataset.go:577-583` | XDatasetCollection.Clone | `V1.Dataset.cloneVal` |
| `xlanguage.go:23-25` | NewXLanguage | `V1.Language.new` |
| `xlanguage.go:30-37` | NewXLanguageFromXMLFile | `V1.Language.blank`, `V1.Language.newFromXMLFile`, `V1.Language.unlessError` |
| `xlanguage.go:42-49` | NewXLanguageFromXMLString | `V1.Language.blank`, `V1.Language.newFromXML`, `V1.Language.unlessError` |
| `xlanguage.go:54-61` | NewXLanguageFromFile | `V1.Language.blank`, `V1.Language.newFromFile`, `V1.Language.unlessError` |
| `xlanguage.go:66-73` | NewXLanguageFromString | `V1.Language.blank`, `V1.Language.newFromString`, `V1.Language.unlessError` |
| `xlanguage.go:78-92` | XLanguage.LoadXMLFile | `V1.Language.loadXMLFile` |
| `xlanguage.go:97-124` | XLanguage.LoadXMLString | `V1.Language.XEntry`, `V1.Language.XLang`, `V1.Language.loadXML`, `V1.Language.put` |
| `xlanguage.go:129-143` | XLanguage.LoadFile | `V1.Language.loadFile` |
| `xlanguage.go:148-176` | XLanguage.LoadString | `V1.Language.loadLine`, `V1.Language.loadString`, `V1.Language.put` |
| `xlanguage.go:179-181` | XLanguage.SetName | `V1.Language.setName` |
| `xlanguage.go:184-186` | XLanguage.SetLanguage | `V1.Language.setLanguage` |
| `xlanguage.go:189-191` | XLanguage.GetName | `V1.Language.getName` |
| `xlanguage.go:194-196` | XLanguage.GetLanguage | `V1.Language.getLanguage` |
| `xlanguage.go:199-201` | XLanguage.Set | `V1.Language.put`, `V1.Language.set` |
| `xlanguage.go:204-210` | XLanguage.Get | `V1.Language.get` |
| `xlanguage.go:213-215` | XLanguage.Del | `V1.Language.del` |
| `xlanguage.go:218-225` | XLanguage.String | `V1.Dataset.sprint`, `V1.Language.toString`, `V1.TemplateConc.sprintP` |
| `xlanguage.go:228-235` | XLanguage.GoString | `V1.Dataset.goSprint`, `V1.Language.goString`, `V1.TemplateConc.goSprintP` |
| `xtemplate.go:79-81` | NewXTemplate | `V1.Template.newTpl` |
| `xtemplate.go:84-91` | NewXTemplateFromFile | `V1.Template.newFromFile` |
| `xtemplate.go:94-101` | NewXTemplateFromString | `V1.Template.newFromString` |
| `xtemplate.go:104-118` | XTemplate.LoadFile | `V1.Template.loadFile` |
| `xtemplate.go:121-123` | XTemplate.LoadString | `V1.Template.loadString` |
| `xtemplate.go:126-265` | XTemplate.compile | `V1.Template.Pass`, `V1.Template.compile`, `V1.Template.elementAt`, `V1.Template.findAll`, `V1.Template.lex`, `V1.Template.matchAt`, `V1.Template.nameAt`, `V1.Template.passLoop`, `V1.Template.passStep`, `V1.Template.register`, `V1.Template.untilDelim` |
| `xtemplate.go:268-273` | XTemplate.AddTemplate | `V1.Template.addTemplate` |
| `xtemplate.go:276-281` | XTemplate.GetTemplate | `V1.Template.getTemplate` |
| `xtemplate.go:284-297` | XTemplate.Execute | `V1.Template.execute`, `V1.Template.langOf`, `V1.TemplateConc.executeP`, `V1.TemplateConc.langP` |
| `xtemplate.go:300-461` | XTemplate.injector | `V1.Template.doCondition`, `V1.Template.doDump`, `V1.Template.doRange`, `V1.Template.doReference`, `V1.Template.injectAll`, `V1.Template.injectItem`, `V1.Template.injector`, `V1.Template.pickRange`, `V1.Template.rangeLoop`, `V1.Template.renderWith`, `V1.TemplateConc.condGetP`, `V1.TemplateConc.doConditionP`, `V1.TemplateConc.doDumpP`, `V1.TemplateConc.doRangeP`, `V1.TemplateConc.doReferenceP`, `V1.TemplateConc.injectAllP`, `V1.TemplateConc.injectItemP`, `V1.TemplateConc.injectorP`, `V1.TemplateConc.rangeLoopP`, `V1.TemplateConc.renderWithP` |
| `xtemplate.go:464-471` | XTemplate.String | `V1.Template.fmtParam`, `V1.Template.toString` |
| `xtemplate.go:474-476` | XTemplate.GoString | `V1.Template.toString` |
<!-- coverage end -->
