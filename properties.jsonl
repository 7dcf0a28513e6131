{"id": "C01", "title": "Cache Get reflects the latest Set", "statement": "In a cache used by one goroutine, after any history of calls Get(k) returns the data of the most recent Set(k,_) provided the entry has not since been deleted, flushed, evicted or invalidated; in particular it never returns data of another key or of an older Set. With Maxitems<=0 and no Clean the answer is exactly determined: value,false while valid; nil,true when the latest Set is present but invalid; nil,false when absent.", "quantifier": "every sequence of Set/SetTTL/Get/Del/Count/Clean/Verify/Flush calls, every clock reading and every validator answer", "why_tests_cant": "a history-dependent claim over unbounded call sequences and times", "anchors": ["v2/xcache.go: XCache.Set, XCache.Get, XCache.mGet, XCache.Del, XCache.Flush"]}
{"id": "C02", "title": "Cache invalid entries are reported once and dropped", "statement": "If Get(k) answers nil,true then the entry was present and invalid (TTL, Validator or Expire), it is removed by that call, Count drops by exactly one, every other key is untouched, and a following Get(k) answers nil,false.", "quantifier": "every reachable cache, key, clock reading and validator answer", "why_tests_cant": "must hold in every reachable state and for every order of the three checks", "anchors": ["v2/xcache.go: XCache.Get, XCache.Del"]}
{"id": "C03", "title": "Cache expiration boundary", "statement": "An entry is invalid by TTL exactly when ttl!=0 and creation time + ttl is strictly before the clock reading; by Expire exactly when Expire!=0 and creation time + Expire is strictly before the clock; the entry is still served at the exact instant creation+ttl. Set restarts creation time and clears the TTL; SetTTL changes only the TTL of an existing entry and does nothing for a missing key.", "quantifier": "every entry, TTL, Expire value (including zero and negative) and clock reading", "why_tests_cant": "a boundary over a continuous clock; tests only sleep past it", "anchors": ["v2/xcache.go: XCache.Get, XCache.Set, XCache.SetTTL"]}
{"id": "C04", "title": "Cache capacity bound", "statement": "With Maxitems = m > 0 the number of entries after every call stays within the limit: Count() never exceeds m.", "quantifier": "every call history, every m, every expiration setting", "why_tests_cant": "a bound over unbounded histories; the code's 10% rounding and stale-key bookkeeping only fail on particular histories", "anchors": ["v2/xcache.go: XCache.Set, XCache.mClean, XCache.Flush"]}
{"id": "C05", "title": "Cache eviction is least-recently-used", "statement": "Clean(perc) and the automatic clean of Set remove exactly the floor(n*perc/100) entries whose last Set or successful Get is oldest, and keep the others.", "quantifier": "every history of Set/SetTTL/Get/Del/Count/Clean/Verify and every perc in 0..100", "why_tests_cant": "quantifies over all recency orders produced by unbounded histories", "anchors": ["v2/xcache.go: XCache.mClean, XCache.removeFromPile, XCache.Get, XCache.Set"]}
{"id": "C06", "title": "Cache cleaning never panics", "statement": "No history of calls makes Set or Clean(perc) with 0<=perc<=100 panic with an index out of range; a larger percentage can.", "quantifier": "every call history including Flush and expiry, every perc", "why_tests_cant": "panic freedom over all histories", "anchors": ["v2/xcache.go: XCache.mClean"]}
{"id": "C07", "title": "Clean reports the number of removed entries", "statement": "Clean(perc) returns the number of entries it removed (expired plus percentage).", "quantifier": "every reachable cache, percentage and clock", "why_tests_cant": "needs the count to be right in every state, including states with expired entries", "anchors": ["v2/xcache.go: XCache.mClean, XCache.Clean"]}
{"id": "C08", "title": "Clean removes all expired entries and Clean(0) nothing else", "statement": "After Clean(perc) no entry is left whose Expire deadline was passed at the instant it was examined; Clean(0) keeps every unexpired entry with its data, creation time and TTL.", "quantifier": "every reachable cache, clock and percentage", "why_tests_cant": "universally quantified over cache contents", "anchors": ["v2/xcache.go: XCache.mClean, XCache.Clean"]}
{"id": "C09", "title": "Verify leaves exactly the valid entries", "statement": "After Verify every remaining entry is unexpired and accepted by the Validator, every removed entry was expired or refused, and the returned number counts the removed entries.", "quantifier": "every reachable cache, validator and clock", "why_tests_cant": "universally quantified over contents and validator functions", "anchors": ["v2/xcache.go: XCache.Verify, XCache.Clean, XCache.Del"]}
{"id": "C10", "title": "Flush empties the cache for good", "statement": "After Flush, Count is 0 and every Get misses, and the cache behaves from then on like a freshly created one.", "quantifier": "every history before and after the Flush", "why_tests_cant": "behavioural equality over all future histories", "anchors": ["v2/xcache.go: XCache.Flush"]}
{"id": "C11", "title": "Cache key isolation", "statement": "Del(k), SetTTL(k,_) and Get(k) never change whether another key is present nor its data, creation time or TTL; Set(k,_) without eviction does not either.", "quantifier": "every reachable cache and pair of keys", "why_tests_cant": "frame condition over all states", "anchors": ["v2/xcache.go: XCache.Del, XCache.SetTTL, XCache.Get, XCache.Set"]}
{"id": "C12", "title": "Concurrent cache Get returns only stored data", "statement": "Under every interleaving of goroutines using the cache, a Get(k) that returns data returns data that some Set(k,_) call stored before the Get returned; no critical section panics and every present key is tracked for eviction.", "quantifier": "every number of goroutines, every program of calls and every schedule", "why_tests_cant": "schedules cannot be enumerated by tests", "anchors": ["v2/xcache.go: XCache.Get, XCache.mGet, XCache.Set, XCache.Del, XCache.Clean, XCache.Flush"]}
{"id": "C13", "title": "A completed Set survives concurrent Gets", "statement": "Once Set(k,v) has returned, and with no Del, Flush, Clean, eviction or later Set of k, the entry stays until it itself becomes invalid, whatever Get calls run concurrently.", "quantifier": "every schedule of concurrent Get and Set calls", "why_tests_cant": "a race between a check and a deletion that shows only in particular interleavings", "anchors": ["v2/xcache.go: XCache.Get (check outside the lock followed by Del)"]}
{"id": "C14", "title": "Lock-protected methods are atomic", "statement": "Methods that do all their work in one critical section (XCache Set/SetTTL/Del/Count/Clean/Flush, all XDatasetTS methods, XDatasetCollectionTS Push/Pop/Shift/Unshift/Count/Get, XLanguage Set/Get/SetStatus/GetStatus/Del/GetEntries/GetXML) behave, in every execution, as if executed one at a time in the order in which they release the lock; readers never observe a half-done update.", "quantifier": "every number of goroutines, every schedule of the individual memory accesses", "why_tests_cant": "linearizability quantifies over all interleavings of micro-steps", "anchors": ["v2/xdatasetts.go", "v2/xdatasetcollectionts.go", "v2/xlanguage.go", "v2/xcache.go: the mutex fields"]}
{"id": "C15", "title": "Dataset Set/Get/Del obey the map laws", "statement": "For a key without '>', Get after Set returns the value set, Get after Del reports absence, and neither changes the answer for any other key or any other dataset.", "quantifier": "every heap of datasets, every pair of keys and every value", "why_tests_cant": "universally quantified over contents", "anchors": ["v2/xdataset.go: XDataset.Set, XDataset.Get, XDataset.Del"]}
{"id": "C16", "title": "Path access follows the nested structure", "statement": "Get(\"k1>k2>...>kn\") navigates: each segment names an entry of the current dataset or, in a collection, a decimal index of an element; the answer is the value at the end of the path, and absence if any step is missing, not a number or out of range.", "quantifier": "every path length, every nesting depth, every heap (including shared sub-structures and thread-safe wrappers)", "why_tests_cant": "unbounded depth and arbitrary structure", "anchors": ["v2/xdataset.go: XDataset.Get"]}
{"id": "C17", "title": "Set followed by Get on any key", "statement": "For every key, including keys containing '>', Get(key) after Set(key,v) returns v.", "quantifier": "every key", "why_tests_cant": "depends on other contents of the dataset", "anchors": ["v2/xdataset.go: XDataset.Set, XDataset.Get"]}
{"id": "C18", "title": "Typed getters agree with Get", "statement": "GetString/GetBool/GetInt/GetFloat/GetTime/Get*Collection/GetDataset/GetCollection answer ok=false exactly when Get does or the value has a type outside the documented conversions, and otherwise return the documented conversion of the value Get returns; integers that fit are returned exactly, nonzero numbers are true.", "quantifier": "every value of every modelled dynamic type", "why_tests_cant": "all values of all numeric types", "anchors": ["v2/xdataset.go: XDataset.GetString, GetBool, GetInt, GetFloat, GetTime, GetStringCollection"]}
{"id": "C19", "title": "GetInt preserves integer values", "statement": "For a value of any integer type, GetInt returns the same mathematical integer.", "quantifier": "every integer type and value", "why_tests_cant": "64-bit value space", "anchors": ["v2/xdataset.go: XDataset.GetInt"]}
{"id": "C20", "title": "Printing a dataset is deterministic", "statement": "String() does not depend on the order in which the runtime iterates over the map, at any nesting level; it lists every entry once, sorted.", "quantifier": "every dataset and every iteration order", "why_tests_cant": "map iteration order is random per run", "anchors": ["v2/xdataset.go: XDataset.String", "v2/xlanguage.go: XLanguage.String"]}
{"id": "C21", "title": "Clone is equal to the original", "statement": "Clone of a dataset or collection terminates on acyclic data and the clone answers every path query and String() as the original does at the time of cloning.", "quantifier": "every acyclic heap and every path", "why_tests_cant": "arbitrary structures", "anchors": ["v2/xdataset.go: XDataset.Clone", "v2/xdatasetcollection.go: XDatasetCollection.Clone", "v2/xdatasetts.go: XDatasetTS.Clone"]}
{"id": "C22", "title": "Clone is independent of the original", "statement": "After Clone, no sequence of Set/Del/Push/Pop/Shift/Unshift calls on the original and objects reachable from it changes any answer of the clone, and vice versa.", "quantifier": "every heap and every later history of mutations", "why_tests_cant": "aliasing over all later histories", "anchors": ["v2/xdataset.go: XDataset.Clone", "v2/xdatasetcollection.go: XDatasetCollection.Clone"]}
{"id": "C23", "title": "Clone shares no memory at all", "statement": "The clone is 'totally new data memory': writing through any value obtained from the clone (including slices and language tables) cannot be seen through the original.", "quantifier": "every value kind", "why_tests_cant": "aliasing", "anchors": ["v2/xdataset.go: XDataset.Clone"]}
{"id": "C24", "title": "NewXDataset mirrors the source map", "statement": "NewXDataset(m).Get(path) finds the scalar stored at that path in the nested map m; nested maps become datasets and slices of maps become collections in order; non-map items of a []interface{} are dropped.", "quantifier": "every nested map and every path", "why_tests_cant": "arbitrary nesting", "anchors": ["v2/xdataset.go: NewXDataset", "v2/xdatasetcollection.go: NewXDatasetCollection"]}
{"id": "C25", "title": "Collections are double-ended queues", "statement": "Any sequence of Push/Pop/Shift/Unshift/Count/Get on a collection behaves as on a mathematical sequence; Pop and Shift on an empty collection panic; Get(i) answers ok exactly for 0<=i<Count().", "quantifier": "every operation sequence", "why_tests_cant": "unbounded histories", "anchors": ["v2/xdatasetcollection.go: Push, Pop, Shift, Unshift, Count, Get"]}
{"id": "C26", "title": "Collection data lookup gives priority to the last dataset", "statement": "GetData(key) returns the value of the last (highest index) dataset that has the key, and reports absence exactly when none has; the typed GetData* agree with it.", "quantifier": "every collection and key", "why_tests_cant": "arbitrary length", "anchors": ["v2/xdatasetcollection.go: GetData, GetDataString, GetDataBool, GetDataInt, GetDataFloat, GetDataTime, GetCollection"]}
{"id": "C27", "title": "Thread-safe collection lookups never panic", "statement": "XDatasetCollectionTS.GetData is safe under concurrent Push/Pop/Shift/Unshift: it never panics and returns a value some element had.", "quantifier": "every schedule", "why_tests_cant": "only particular interleavings fail", "anchors": ["v2/xdatasetcollectionts.go: GetData, Pop, Shift"]}
{"id": "C28", "title": "Panics do not wedge thread-safe objects", "statement": "If a method of a thread-safe object panics and the caller recovers, other goroutines can still use the object.", "quantifier": "every method, state and later schedule", "why_tests_cant": "requires reasoning about lock state after a panic", "anchors": ["v2/xdatasetcollectionts.go: Shift, Pop", "v2/xdatasetts.go: Set, Del", "v2/xcache.go: Clean"]}
{"id": "C29", "title": "XDatasetTS is transparent", "statement": "Wrapping a dataset in XDatasetTS (any number of times) does not change the answer of any method.", "quantifier": "every wrapped dataset, wrap depth, key", "why_tests_cant": "arbitrary nesting", "anchors": ["v2/xdatasetts.go: NewXDatasetTS and all methods"]}
{"id": "C30", "title": "Language table obeys the map laws", "statement": "Get(e) returns the value of the last Set/Load of e not followed by Del(e), and \"\" otherwise; status entries likewise; Del removes both; entries do not interfere. GetName and GetLanguage return what the last SetName / SetLanguage or successful XML load gave, or what NewXLanguage was given.", "quantifier": "every call history", "why_tests_cant": "unbounded histories", "anchors": ["v2/xlanguage.go: NewXLanguage, Set, Get, SetStatus, GetStatus, Del, SetName, GetName, SetLanguage, GetLanguage"]}
{"id": "C31", "title": "Flat text format is parsed line by line", "statement": "LoadString assigns key=value for each line with an '=' that is not empty, not a # or ; comment and has a non-blank key, trimming blanks around key and value; later lines win; other lines have no effect.", "quantifier": "every byte string whose lines are shorter than 64 KiB", "why_tests_cant": "all inputs", "anchors": ["v2/xlanguage.go: LoadString"]}
{"id": "C32", "title": "Flat text round trip", "statement": "Writing a table as key=value lines and loading it gives back the same table, for keys and values that the format can carry.", "quantifier": "every table satisfying the stated well-formedness", "why_tests_cant": "all tables", "anchors": ["v2/xlanguage.go: LoadString, Get"]}
{"id": "C33", "title": "LoadString fails exactly on over-long lines", "statement": "LoadString returns an error exactly when some line has 65536 bytes or more before its newline; the lines before it are loaded and the rest are not.", "quantifier": "every input", "why_tests_cant": "all inputs and sizes", "anchors": ["v2/xlanguage.go: LoadString (bufio.Scanner)"]}
{"id": "C34", "title": "Loading replaces the content", "statement": "LoadString/LoadXMLString replace the content of the language with the new data.", "quantifier": "every previous content and every input", "why_tests_cant": "depends on the previous state", "anchors": ["v2/xlanguage.go: LoadString, LoadXMLString"]}
{"id": "C35", "title": "XML export/import round trip", "statement": "LoadXMLString(GetXML()) restores every entry and status of the table.", "quantifier": "every table", "why_tests_cant": "all keys and values, including XML metacharacters", "anchors": ["v2/xlanguage.go: GetXML, LoadXMLString"]}
{"id": "C36", "title": "Failed XML load leaves the table unchanged", "statement": "If LoadXMLString returns an error the entries, statuses, name and language are as before; on success every entry and status of the document is set, last duplicate wins, and other entries stay.", "quantifier": "every table and document", "why_tests_cant": "all inputs", "anchors": ["v2/xlanguage.go: LoadXMLString"]}
{"id": "C37", "title": "GetEntries is a copy", "statement": "The map returned by GetEntries equals the table at the time of the call and is not affected by later calls, nor does changing it affect the table.", "quantifier": "every later history", "why_tests_cant": "aliasing over histories", "anchors": ["v2/xlanguage.go: GetEntries"]}
{"id": "C38", "title": "Tokenisation loses nothing", "statement": "The compiler splits a template into literal text and meta elements whose source texts concatenate to the input; matches are leftmost and non-overlapping; no literal piece contains a complete meta element that starts in it.", "quantifier": "every byte string", "why_tests_cant": "all inputs", "anchors": ["v2/xtemplate.go: compile (regular expression pass)"]}
{"id": "C39", "title": "Plain text renders as itself", "statement": "A template without meta elements compiles and renders, for every data set and for nil, exactly its own text.", "quantifier": "every such text and every data", "why_tests_cant": "all inputs", "anchors": ["v2/xtemplate.go: compile, injector"]}
{"id": "C40", "title": "Compilation succeeds exactly on balanced templates", "statement": "LoadString returns an error exactly when the [[id]] / [[]] boxes are not balanced.", "quantifier": "every byte string", "why_tests_cant": "all nestings", "anchors": ["v2/xtemplate.go: compile (second pass)"]}
{"id": "C41", "title": "Compilation builds the nesting structure", "statement": "For a balanced template the compiled tree mirrors the source: each box becomes a sub-template of the box that directly contains it, with its own elements in source order and nothing else, registered under each of its |-separated names; the last box with a name wins.", "quantifier": "every balanced template of any depth", "why_tests_cant": "arbitrary nesting", "anchors": ["v2/xtemplate.go: compile (second and last pass), AddTemplate"]}
{"id": "C42", "title": "Template lookup is lexically scoped", "statement": "GetTemplate(name) from a compiled sub-template finds the definition in the innermost enclosing box that declares the name, and nil if none does; sub-templates of siblings are invisible; lookups on compiled templates terminate.", "quantifier": "every compiled template and name", "why_tests_cant": "arbitrary nesting", "anchors": ["v2/xtemplate.go: GetTemplate, AddTemplate"]}
{"id": "C43", "title": "Comments leave no trace", "statement": "Inserting a comment %--...--% (and the end of line it swallows) outside the meta elements changes nothing: the template compiles if and only if it did before, and renders the same. (In a text with a stray %--, which is literal text as long as no --% follows, the stray one becomes the start of the comment; that case is excluded.)", "quantifier": "every template text without stray %--, every position outside meta elements, every comment and all data", "why_tests_cant": "all inputs", "anchors": ["v2/xtemplate.go: compile, injector"]}
{"id": "C44", "title": "Comment and box tags swallow one end of line", "statement": "A line end directly after a comment or box tag is removed from the output, for \\n, \\r, \\r\\n and \\n\\r alike.", "quantifier": "every template", "why_tests_cant": "all inputs", "anchors": ["v2/xtemplate.go: compile (regular expression)"]}
{"id": "C45", "title": "Field injection is verbatim and scoped", "statement": "{{path}} is replaced by the printed value of the innermost scope that has the path, the empty string if none has, and injected text is never interpreted again as meta language.", "quantifier": "every path, value and scope stack", "why_tests_cant": "all values including text that looks like meta language", "anchors": ["v2/xtemplate.go: injector (MetaVariable)"]}
{"id": "C46", "title": "Language injection", "statement": "##id## is replaced by the language entry id of the table stored under '#' of the root dataset, empty if absent or if there is no table.", "quantifier": "every table and id", "why_tests_cant": "all inputs", "anchors": ["v2/xtemplate.go: Execute, injector (MetaLanguage)"]}
{"id": "C47", "title": "References call the named sub-template", "statement": "&&id&& renders the visible sub-template id with the same data; &&id:key&& renders it with the dataset at key pushed as innermost scope when it exists; &&:key:prefix&& renders prefix+value, or prefix when that does not exist; a missing sub-template renders nothing.", "quantifier": "every template and data", "why_tests_cant": "all programs", "anchors": ["v2/xtemplate.go: injector (MetaReference)"]}
{"id": "C48", "title": "Loops render every element in order", "statement": "@@key:id@@ renders, for a nonempty collection, one instance per element in order with that element as innermost scope, choosing id.key.i, id.first, id.last, id.even, id in this priority; for an empty or missing collection it renders id.none, or id itself once when there is no id.none.", "quantifier": "every collection length and template set", "why_tests_cant": "unbounded loops", "anchors": ["v2/xtemplate.go: injector (MetaRange)"]}
{"id": "C49", "title": "Conditions choose the branch by value", "statement": "??key:id?? renders id.<value> if present, else id, when the key has a non-empty value (pushing it as scope when it is a dataset); otherwise id.none. A condition that is not met never renders the positive branch id.", "quantifier": "every value and template set", "why_tests_cant": "all values", "anchors": ["v2/xtemplate.go: injector (MetaCondition)"]}
{"id": "C50", "title": "Rendering restores the scope stack and only adds counters", "statement": "Execute leaves the data as it was except that elements of looped collections get a \".counter\" entry; nested rendering restores the scope stack exactly.", "quantifier": "every template, data and nesting", "why_tests_cant": "frame condition over all programs", "anchors": ["v2/xtemplate.go: injector, Execute"]}
{"id": "C51", "title": "Execute(nil) does not panic", "statement": "Rendering any compiled template with nil data never panics.", "quantifier": "every template", "why_tests_cant": "all templates", "anchors": ["v2/xtemplate.go: Execute, injector"]}
{"id": "C52", "title": "Rendering terminates", "statement": "Execute terminates for every compiled template and acyclic data.", "quantifier": "every template", "why_tests_cant": "termination", "anchors": ["v2/xtemplate.go: injector, GetTemplate"]}
{"id": "C53", "title": "A cloned template renders like the original", "statement": "Right after Clone, both the clone and the original render every data set as the original did before.", "quantifier": "every template tree and data", "why_tests_cant": "all templates and data", "anchors": ["v2/xtemplate.go: Clone"]}
{"id": "C54", "title": "A cloned template is independent", "statement": "Changing the clone (AddTemplate, LoadString) never changes what the original renders, and vice versa.", "quantifier": "every later change", "why_tests_cant": "aliasing through parent links", "anchors": ["v2/xtemplate.go: Clone, AddTemplate, GetTemplate"]}
{"id": "C55", "title": "Rendering is deterministic", "statement": "Templates compiled from the same text give the same text for equal data: datasets with the same contents all the way down and the same sharing of objects, wherever they are in memory and in whatever order their maps are iterated. Without loops in the template the sharing does not matter either. The outcome does not depend on resources given to it.", "quantifier": "every template text, every two equal pieces of data, every memory", "why_tests_cant": "all pairs of equal data and all map iteration orders", "anchors": ["v2/xtemplate.go: Execute", "v2/xdataset.go: Get, String"]}
{"id": "C56", "title": "Template text is data for other templates only through names", "statement": "A sub-template's text appears in the output only through an element naming it: templates never referenced do not influence the output.", "quantifier": "every template", "why_tests_cant": "all programs", "anchors": ["v2/xtemplate.go: injector, GetTemplate"]}
{"id": "C57", "title": "Locked calls never deadlock", "statement": "Goroutines calling, on one object, the cache methods that hold the mutex, the locked methods of an XLanguage, or the methods of an XDatasetTS that wraps a dataset, never deadlock: as long as a call is unfinished some goroutine can move, even if calls panic; and when no goroutine is inside a call the mutex is free.", "quantifier": "every number of goroutines, every program of calls, every schedule, every panic", "why_tests_cant": "a deadlock shows only in particular interleavings and panics", "anchors": ["v2/xcache.go: XCache.Set, XCache.SetTTL, XCache.mGet, XCache.Del, XCache.mClean, XCache.Flush", "v2/xlanguage.go: XLanguage.Set, XLanguage.Get, XLanguage.Del, LoadString", "v2/xdatasetts.go"]}
{"id": "C58", "title": "A failed load changes nothing", "statement": "LoadString (and NewXTemplateFromString) of a text whose box tags are not balanced reports an error and leaves every existing template as it was.", "quantifier": "every text and every set of existing templates", "why_tests_cant": "all malformed texts", "anchors": ["v2/xtemplate.go: LoadString, compile, AddTemplate"]}
{"id": "C59", "title": "Rendering twice gives the same text", "statement": "Executing a template twice in a row on the same dataset gives the same text both times.", "quantifier": "every template and data", "why_tests_cant": "a rendering may leave traces in the data that only some templates show", "anchors": ["v2/xtemplate.go: Execute, injector (MetaRange)"]}
{"id": "C60", "title": "Execute does not panic", "statement": "Rendering a compiled template with a dataset never panics, whatever types the values at the paths have.", "quantifier": "every template, every data without nil elements in collections", "why_tests_cant": "all combinations of elements and value types", "anchors": ["v2/xtemplate.go: Execute, injector", "v2/xdatasetcollection.go: GetData"]}
{"id": "C61", "title": "A lookup does not miss what is there", "statement": "If GetData on an XDatasetCollectionTS answers that no element has a value, then every element that was in the collection during the whole call lacked the value at some moment during the call, whatever other goroutines do.", "quantifier": "every number of goroutines, every schedule", "why_tests_cant": "only particular interleavings fail", "anchors": ["v2/xdatasetcollectionts.go: GetData, Unshift, Push"]}
{"id": "C62", "title": "Constructors from texts and files load exactly the given data, or nothing", "statement": "NewXLanguageFromString returns a table exactly for texts without a line of 65536 bytes or more, with exactly the entries the text assigns (last assignment wins), no status and no name; NewXLanguageFromXMLString returns one exactly for texts that parse as a document, with its name, language, entries and statuses and nothing else. The file variants of the constructors and of LoadFile / LoadXMLFile, for languages and templates, behave as the string variants on the contents of the file. A file that cannot be read gives an error, no object, and leaves an existing object unchanged. A table exported with GetXML to a file comes back equal from NewXLanguageFromXMLFile (for texts that XML can carry unescaped).", "quantifier": "every text, document, file system, file name, table and template", "why_tests_cant": "It ranges over all texts and all file contents, and says that nothing else is in the result.", "anchors": ["v2/xlanguage.go: NewXLanguageFromXMLFile, NewXLanguageFromXMLString, NewXLanguageFromFile, NewXLanguageFromString, LoadXMLFile, LoadFile", "v2/xtemplate.go: NewXTemplateFromFile, LoadFile"]}
{"id": "C63", "title": "A template prints its own elements, each once and in order", "statement": "String and GoString of a template compiled from a text write every element of its own level (not those inside its boxes) exactly once, as {type text} or with field names and quoted text, in ascending order; a template without text is written as an empty one; a clone is written like the original, and cloning does not change how existing templates are written.", "quantifier": "every text that compiles, every family of templates", "why_tests_cant": "It ranges over all templates and must hold whatever boxes, comments and elements they contain.", "anchors": ["v2/xtemplate.go: XTemplate.String, XTemplate.GoString, XTemplate.Clone"]}
{"id": "C64", "title": "A clone of the data renders like the data, and protects them", "statement": "If no dataset or collection is at two places in the data, every template gives with a clone of the data exactly the texts it gives with the data themselves; without loops this holds for all data. Clone always gives data in which no dataset or collection is at two places, all of them new. Execute changes only datasets that can be reached from the data it is given, so executing with the clone leaves the original, and everything else that was there before, exactly as it was, and the other way round.", "quantifier": "every text that compiles, all data (any nesting and sharing), every state of memory", "why_tests_cant": "It ranges over all templates and all data graphs; loops write counters into the data, so the claim depends on aliasing that samples do not show.", "anchors": ["v2/xdataset.go: XDataset.Clone", "v2/xdatasetts.go: XDatasetTS.Clone", "v2/xdatasetcollection.go: XDatasetCollection.Clone", "v2/xtemplate.go: XTemplate.Execute, XTemplate.injector"]}
{"id": "C65", "title": "Version 1: cache Get reflects the latest Set, Verify keeps the valid entries", "statement": "With the cache of the root package used by one goroutine at a time, Get answers in every history what an unlimited cache would answer (latest Set wins; deleted, flushed, expired or refused entries are gone), or misses because the key was evicted. Verify leaves exactly the entries that are neither expired nor refused. Set, Verify and Clean with at most 100 percent never panic.", "quantifier": "every history of calls on a cache of version 1, every clock and validator", "why_tests_cant": "It quantifies over all histories; Verify leaves stale keys in the eviction order, so the panic-freedom depends on an invariant, not on single calls.", "anchors": ["xcache.go: NewXCache, XCache.Set, Get, Del, Count, Clean, Verify, Flush, removeFromPile"]}
{"id": "C66", "title": "The caches of version 1 and version 2 give the same answers", "statement": "The same history of calls gives the same answers with the cache of version 1 and with the cache of version 2.", "quantifier": "every history of the calls both versions have", "why_tests_cant": "It compares two implementations on all histories; they differ only after a Verify that removes entries followed by an eviction.", "anchors": ["xcache.go: XCache", "v2/xcache.go: XCache"]}
{"id": "C67", "title": "Version 1: concurrent Get returns only stored data", "statement": "With the cache of version 1 shared by any number of goroutines, data returned by Get(k) were stored under k by a Set before that Get returned.", "quantifier": "every schedule, any number of goroutines, any effect of the data race on the eviction order", "why_tests_cant": "It must hold for all interleavings; tests see a few.", "anchors": ["xcache.go: XCache.Get, XCache.Set"]}
{"id": "C68", "title": "Version 1: the eviction order survives concurrent use", "statement": "With the cache of version 1 shared by goroutines, every key present stays known to the eviction order, so that Clean never panics and every entry can be evicted.", "quantifier": "every schedule, any number of goroutines", "why_tests_cant": "The failure needs a Set between two unlocked accesses of a Get; ordinary tests never hit it, and after it the cache is locked for ever.", "anchors": ["xcache.go: XCache.Get, XCache.removeFromPile, XCache.Clean"]}
{"id": "C69", "title": "Version 1: language tables answer like those of version 2", "statement": "In version 1, after any history of calls on a table made by a constructor, Get returns the value last written by Set, LoadString or LoadXMLString unless deleted since, and the empty string otherwise; no call panics; name, language, entries, printed texts and reported errors are those of version 2 for the same calls, whether the texts come from strings or files. A table built without its map reads as empty and panics exactly when something is to be stored.", "quantifier": "every history of calls, every text, every XML decoder and tag parser, every file system", "why_tests_cant": "The claim ranges over all histories and texts; tests compare a few files.", "anchors": ["xlanguage.go: NewXLanguage, NewXLanguageFromString, NewXLanguageFromXMLString, NewXLanguageFromFile, NewXLanguageFromXMLFile, XLanguage.LoadString, XLanguage.LoadXMLString, XLanguage.LoadFile, XLanguage.LoadXMLFile, XLanguage.Set, XLanguage.Get, XLanguage.Del, XLanguage.String, XLanguage.GoString"]}
{"id": "C70", "title": "Version 1: reading datasets", "statement": "In version 1, Get(path) answers a value exactly if the path leads to it and never panics; GetBool, GetInt, GetFloat and GetString convert as documented, and the other getters answer exactly for their own type; String and GoString do not depend on map iteration order and end on acyclic data. On the same data version 2 answers the same, except GetBool for nil (absent in version 1, false in 2) and the zero time (true, false), and GetInt and GetFloat for times (absent in version 1).", "quantifier": "every memory a program can build, every dataset, every key or path, every value", "why_tests_cant": "The claim ranges over all nested data and paths and says where the versions differ and nowhere else.", "anchors": ["xdataset.go: XDataset.Get, XDataset.GetDataset, XDataset.GetCollection, XDataset.GetString, XDataset.GetBool, XDataset.GetInt, XDataset.GetFloat, XDataset.GetTime, XDataset.GetStringCollection, XDataset.String, XDataset.GoString"]}
{"id": "C71", "title": "Version 1: writing datasets and collections", "statement": "In version 1, after Set or Del with a key without '>', Get of that key answers the value or absence, and other keys and other objects are as before; a collection behaves as a sequence under Push, Pop, Shift, Unshift, Count and Get; GetData answers from the last dataset that has the key and panics exactly when it meets a nil element first; the typed lookups answer exactly for their own type, and GetCollection panics exactly when the value found is no collection. Any history of calls gives the same data as in version 2.", "quantifier": "every memory a program can build, every history of calls, every key, every index", "why_tests_cant": "It must hold after every history, with objects shared in every way.", "anchors": ["xdataset.go: XDataset.Set, XDataset.Del, XDatasetCollection.Push, XDatasetCollection.Pop, XDatasetCollection.Shift, XDatasetCollection.Unshift, XDatasetCollection.Count, XDatasetCollection.Get, XDatasetCollection.GetData, XDatasetCollection.GetDataString, XDatasetCollection.GetCollection"]}
{"id": "C72", "title": "Version 1: clones of datasets and collections", "statement": "In version 1, Clone of acyclic data without nil elements ends, changes nothing, and gives an object that answers every query as the original; no program that holds only one side can change what the other answers by calls on datasets and collections. Slices and language tables inside are shared between the two.", "quantifier": "every memory a program can build, every nesting, every program on either side", "why_tests_cant": "Independence is about all later histories of calls on either side, through every path.", "anchors": ["xdataset.go: XDataset.Clone, XDatasetCollection.Clone"]}
{"id": "C73", "title": "Version 1: reading and compiling templates", "statement": "In version 1 every template text is read in exactly one way as literal pieces and meta elements, no meta element starts inside a literal piece, and the source texts concatenate to the input. LoadString and NewXTemplateFromString fail exactly if the box tags are not balanced; otherwise the template has the elements at its own level as root and, under each name, the last box that declares it, each compiled likewise. GetTemplate finds exactly the boxes the template itself declares and what was added, not those around it. A failed load changes only the sub-templates; files behave as their contents; String lists the elements at the own level, and panics exactly for a template without text.", "quantifier": "every text, every memory of templates, every file system", "why_tests_cant": "The reading must be unique for every byte string, including broken and overlapping tags, and every nesting of boxes.", "anchors": ["xtemplate.go: NewXTemplate, NewXTemplateFromString, NewXTemplateFromFile, XTemplate.LoadString, XTemplate.LoadFile, XTemplate.compile, XTemplate.AddTemplate, XTemplate.GetTemplate, XTemplate.String"]}
{"id": "C74", "title": "Version 1: what Execute renders", "statement": "In version 1, Execute of a compiled text ends exactly as the template language says: literal text as it is, comments as nothing, fields with the text of the value the path leads to in the innermost dataset that has it, language entries from the table under '#', references, loops and conditions with the first box in the documented order of names, dumps with the printed data; or with a panic exactly if the language says so. The result depends only on the text, the data and the runtime; injected data are never read as template text.", "quantifier": "every text, every data a program can build, nil data, every nesting", "why_tests_cant": "Templates, nestings and data can be combined in infinitely many ways.", "anchors": ["xtemplate.go: XTemplate.Execute, XTemplate.injector"]}
{"id": "C75", "title": "Version 1: rendering ends", "statement": "In version 1, Execute of any text that compiles ends, on nil and on all data without cycles, and nested calls are never deeper than the boxes are nested: a box that refers to itself renders nothing there.", "quantifier": "every text, every acyclic data, nil data", "why_tests_cant": "Termination is a claim about every template and every data.", "anchors": ["xtemplate.go: XTemplate.Execute, XTemplate.injector, XTemplate.GetTemplate"]}
{"id": "C76", "title": "Version 1: Execute does not panic", "statement": "In version 1, Execute of a text that compiles does not panic.", "quantifier": "every text, every data a program can build, nil data", "why_tests_cant": "Panics depend on the combination of template, data and nil values.", "anchors": ["xtemplate.go: XTemplate.Execute, XTemplate.injector; xdataset.go: XDatasetCollection.GetCollection"]}
{"id": "C77", "title": "Concurrent loads and writes of a language table", "statement": "When goroutines use one language table at the same time (Set, SetStatus, Del, LoadString, LoadXMLString, SetName, SetLanguage and the reading calls), every entry, status, name and language holds, at every moment and in every answer, what it held at the beginning, nothing if some call deletes it, or a value that one call (one line of a text, one entry of a document) gives it; when all calls have been made it holds what one of the goroutines concerned would have left there alone, so an entry only one goroutine writes is not disturbed by the others.", "quantifier": "every number of goroutines, every list of calls of each, every table at the beginning, every schedule of the individual accesses", "why_tests_cant": "The number of interleavings of lines and accesses is unbounded and a test sees a few of them.", "anchors": ["v2/xlanguage.go: XLanguage.LoadString, XLanguage.LoadXMLString, XLanguage.Set, XLanguage.SetStatus, XLanguage.Del, XLanguage.Get, XLanguage.GetStatus, XLanguage.SetName, XLanguage.SetLanguage"]}
{"id": "C78", "title": "A load is seen whole", "statement": "A reader that uses a language table while another goroutine loads a text or a document into it sees all of the load or nothing of it: entries, statuses, name and language.", "quantifier": "every text and document, every number of goroutines, every schedule", "why_tests_cant": "A half-done load is seen only in particular schedules.", "anchors": ["v2/xlanguage.go: XLanguage.LoadString, XLanguage.LoadXMLString, XLanguage.GetEntries, XLanguage.GetXML"]}
{"id": "C79", "title": "Templates that were never loaded", "statement": "Execute on a template that was never loaded, or whose loads all failed, returns the text \"Error, no template.Root compiled\" for every data and for nil and changes nothing; adding sub-templates to it, loading, adding to or cloning other templates does not change that, and its clones behave the same.", "quantifier": "every history of NewXTemplate, LoadString, AddTemplate and Clone, every data, nil data", "why_tests_cant": "The claim is about every history of calls on any number of templates.", "anchors": ["v2/xtemplate.go: NewXTemplate, XTemplate.LoadString, XTemplate.AddTemplate, XTemplate.Clone, XTemplate.Execute, XTemplate.injector"]}
{"id": "C80", "title": "Nil elements of collections in templates", "statement": "When collections may hold nil elements, Execute with a dataset panics exactly when a loop comes to a nil element; a loop over a collection with a nil element and a visible sub-template never gives a text; a path that leads to or through a nil element has no value and does not panic; and one Execute never has two outcomes.", "quantifier": "every template that compiles, every data, every path, every position of the nil elements", "why_tests_cant": "Templates, nesting and data combine without bound; where the nil element is met depends on all of them.", "anchors": ["v2/xtemplate.go: XTemplate.Execute, XTemplate.injector", "v2/xdataset.go: XDataset.Get", "v2/xdatasetcollection.go: XDatasetCollection.Push, XDatasetCollection.Get"]}
{"id": "C81", "title": "Cache calls that do not overlap", "statement": "When any number of goroutines use one cache and no call starts before the previous call has returned, every Get returns what it would return if one goroutine made the same calls in the same order with the same clock readings and validator answers, the same calls panic, and the cache ends with the same entries in the same order of recency.", "quantifier": "every number of goroutines, every sequence of calls (Set, SetTTL, Get, Del, Clean, Verify, Flush, configuration), every clock and validator, every order in which Verify looks at the keys", "why_tests_cant": "which goroutine makes which call, the history and the iteration order of the map range over infinite sets", "anchors": ["v2/xcache.go: XCache.Get, XCache.Set, XCache.SetTTL, XCache.Del, XCache.Clean, XCache.Verify, XCache.Flush"]}
{"id": "C82", "title": "Collection calls that do not overlap", "statement": "When any number of goroutines use one XDatasetCollectionTS and no call starts before the previous call has returned, Push, Pop, Shift, Unshift and GetData give the answers, and leave the elements and datasets, of the same calls made in the same order by one goroutine; GetData answers from the last element that has a value. Every such call comes to its end unless a Pop or Shift of the empty collection panicked before: then no further call on the collection ever begins.", "quantifier": "every number of goroutines, every list of calls of each of them, every order of turns, every collection and every dataset heap, nil elements and wrappers around nothing included", "why_tests_cant": "which goroutine makes which call, the history and the datasets range over infinite sets, and waiting for ever cannot be observed in finite time", "anchors": ["v2/xdatasetcollectionts.go: Push, Pop, Shift, Unshift, GetData"]}
{"id": "C83", "title": "Calls on a cache of version 1 that do not overlap", "statement": "When any number of goroutines use one cache of version 1 and no call starts before the previous call has returned, every Get returns what it would return if one goroutine made the same calls in the same order with the same clock readings and validator answers, the same calls panic, and the cache ends with the same entries and the same order of eviction.", "quantifier": "every number of goroutines, every sequence of calls (Set, Get, Del, Clean, Verify, Flush, configuration), every clock and validator, every order in which Verify looks at the keys", "why_tests_cant": "which goroutine makes which call, the history and the iteration order of the map range over infinite sets", "anchors": ["xcache.go: XCache.Get, XCache.Set, XCache.Del, XCache.Clean, XCache.Verify, XCache.Flush"]}
{"id": "C84", "title": "Nested thread-safe objects do not block each other for ever", "statement": "Thread-safe datasets and collections may contain each other. Whatever calls any number of goroutines make on them, if some call is going on then some goroutine can take a step, and when no more calls are begun all calls come to their end.", "quantifier": "every heap of nested objects, every number of goroutines, every sequence of calls, every order of turns, Go's rule that a waiting writer keeps new readers out included", "why_tests_cant": "a deadlock needs one exact interleaving of lock operations on data of unbounded depth, and waiting for ever cannot be observed in finite time", "anchors": ["v2/xdatasetts.go: XDatasetTS.Get, Set, Del, Clone, String", "v2/xdatasetcollectionts.go: XDatasetCollectionTS.GetData, Get, Push, Pop, Shift, Unshift, Count, Clone"]}
{"id": "C85", "title": "Entries behind a lock are only touched under that lock", "statement": "The entries of a dataset that is reached through one thread-safe wrapper only, and the elements of a thread-safe collection, are read only by goroutines that hold the object's lock and changed only by the goroutine that holds it alone; no two goroutines use them at once if one of them changes them.", "quantifier": "every heap in which other objects are shared and nested in any way, every number of goroutines, every sequence of calls on any object, every order of turns", "why_tests_cant": "a data race needs one exact interleaving, and a race detector sees only the executions that happen", "anchors": ["v2/xdatasetts.go: every method", "v2/xdatasetcollectionts.go: every method"]}
{"id": "C86", "title": "Undisturbed calls on nested thread-safe objects", "statement": "A call that runs while no other goroutine holds a lock for writing and nobody else takes a step comes to its end, answers and changes what the sequential code does, and gives back every lock it took, however deep the objects are nested and however often it takes the same read lock again.", "quantifier": "every well-formed heap, cyclic ones included, every key path, every object, every number of other readers", "why_tests_cant": "data, paths and the depth of nesting are unbounded", "anchors": ["v2/xdatasetts.go: Get, Set, Del", "v2/xdatasetcollectionts.go: GetData, Get, Push, Pop, Shift, Unshift, Count", "v2/xdataset.go: XDataset.Get, Set, Del"]}
{"id": "C87", "title": "Calls on nested thread-safe objects take effect at one moment", "statement": "While any number of goroutines use nested thread-safe datasets and collections, every Get with a path, every Set and Del, and every Push, Pop, Shift, Unshift, Count and Get(i) of a collection has the answer and the effect of the sequential method at one moment between its beginning and its end, and changes nothing at any other moment.", "quantifier": "every heap of nested objects, every key path, every number of goroutines, every sequence of calls of the others, every order of turns", "why_tests_cant": "whether an answer belongs to one moment depends on the exact interleaving of the lock operations of all goroutines along paths of unbounded length", "anchors": ["v2/xdatasetts.go: XDatasetTS.Get, Set, Del", "v2/xdatasetcollectionts.go: Push, Pop, Shift, Unshift, Count, Get", "v2/xdataset.go: XDataset.Get"]}
{"id": "C88", "title": "Templates put together with AddTemplate", "statement": "A template added to another under a name is rendered wherever that name is used as if its text stood in a box of that name at the end of the text of the other; it sees its own boxes first and then those of the template it was added to. A lookup gives the nearest of the template and the templates around it that has the name. A template that was never loaded renders the text of an error. This holds for every set of templates made by any sequence of NewXTemplate, LoadString (successful or not) and AddTemplate in which no template was added to itself or to one inside it.", "quantifier": "every sequence of template calls, every template text, every name, all data", "why_tests_cant": "sequences of calls, texts, data and the depth of nesting are unbounded", "anchors": ["v2/xtemplate.go: AddTemplate, GetTemplate, Execute, injector"]}
{"id": "C89", "title": "Adding a template elsewhere does not change a page", "statement": "A template can be added to several others; adding it to a further one does not change what the others render.", "quantifier": "every set of templates, every name, all data", "why_tests_cant": "sets of templates and data are unbounded", "anchors": ["v2/xtemplate.go: AddTemplate, GetTemplate"]}
{"id": "C90", "title": "Looking up a template returns", "statement": "GetTemplate always returns, whatever was added to what and whatever was cloned.", "quantifier": "every sequence of template calls, every name", "why_tests_cant": "sequences of calls are unbounded", "anchors": ["v2/xtemplate.go: GetTemplate, AddTemplate, Clone"]}
{"id": "C91", "title": "Version 1: templates put together with AddTemplate", "statement": "In version 1, what Execute returns is determined by the elements of the template and the templates registered in it, for every set of templates made by any sequence of NewXTemplate, LoadString (successful or not) and AddTemplate in which no template was added to itself or to one inside it: it ends on data without cycles, an added template is rendered as if its text stood in a box of that name at the end of the text of the receiver, a template that was never loaded renders the text of an error, and adding a template changes only what templates that contain the receiver render, so a part can be shared.", "quantifier": "every sequence of template calls, every template text, every name, all data", "why_tests_cant": "sequences of calls, texts, data and the depth of nesting are unbounded", "anchors": ["xtemplate.go: AddTemplate, GetTemplate, LoadString, Execute, injector"]}
{"id": "C92", "title": "Language documents in XML load as they are written", "statement": "LoadXMLString succeeds exactly for texts that begin with a language document in XML (declaration, comments, processing instructions, elements nested to any depth, attributes in either kind of quotes, text, CDATA sections, the predefined entities and numeric character references), whatever follows the root element; a document describes one language only. Then name and language of the table are the attributes id and lang of the root element, each entry element directly inside the root gives the table its text (the text directly inside it, with references replaced and line ends as newlines) and status, the last one of the same id counting, and all other entries stay. For any other text it returns an error and the table is as before. Version 1 loads the same documents without the statuses. (Other parts of XML, such as DOCTYPE, namespaces and names outside of ASCII, are not covered: of texts with these the decoder of the standard library accepts some.)", "quantifier": "every text, every document of the grammar (any size, nesting and characters), every table", "why_tests_cant": "the set of texts and documents is infinite, with nesting of any depth", "anchors": ["v2/xlanguage.go: LoadXMLString", "xlanguage.go: LoadXMLString"]}
{"id": "C93", "title": "Numbers read as float64", "statement": "GetFloat of an integer of any type gives the float64 nearest to it (the even one of two that are equally near) and no other; up to 2^53 in size it is the integer itself, so that storing that float64 and reading it with GetInt gives the integer back; a greater integer is never read as a smaller float64; GetBool of the integer and of its float64 agree. GetFloat of a float32 is the same number with the same sign, infinities and NaN included. (Above 2^53 integers may be rounded: 2^53 + 1 is read as 2^53.) The same holds in version 1.", "quantifier": "every integer of every integer type, every float32 bit pattern, every dataset and key", "why_tests_cant": "2^64 integers and 2^32 float32 values; rounding goes wrong at few of them", "anchors": ["v2/xdataset.go: XDataset.GetFloat", "v2/xdataset.go: XDataset.GetInt", "xdataset.go: XDataset.GetFloat"]}
{"id": "C94", "title": "Template syntax is that of the regular expression", "statement": "The regular expression in the template compiler is valid (loading a template cannot panic because of it), and for every text - valid UTF-8 or not - its leftmost, first-found matches, with the groups they capture, are exactly the meta elements described by the template language: at a place of the text an element is recognised if and only if the description says it stands there, with the same kind, the same name and the same text after it, and the elements and texts a template is made of are those between and at the matches. No match is of an unknown kind or empty. The same holds for the other expression of version 1.", "quantifier": "every byte string and every position in it; both versions", "why_tests_cant": "texts are unbounded, and how lazy repetitions, alternatives, multi-byte characters and invalid bytes interact shows only on particular texts", "anchors": ["v2/xtemplate.go: XTemplate.compile", "xtemplate.go: XTemplate.compile"]}
{"id": "C95", "title": "Clean percentages on a 64-bit machine", "statement": "As long as the percentages given to Clean are between -100 and 100 (more generally: as long as the number of entries times the percentage fits in an int), and fewer than 2^56 calls are made on a new cache, the wrap-around of 64-bit arithmetic never shows: every answer and the contents of the cache are those computed with unbounded integers, and no call panics. Beyond that it does show: Clean with a hugely negative percentage, which should evict nothing, can panic with the lock held, and Clean with a hugely positive one can evict nothing. The same for version 1.", "quantifier": "every history of calls (Set, SetTTL, Get, Del, Count, Clean, Verify, Flush, assignments to the fields) with any keys, clocks and validators; both versions", "why_tests_cant": "overflow needs a particular combination of number of entries and percentage, and that it never happens within the documented range is a claim about all histories", "anchors": ["v2/xcache.go: XCache.mClean", "xcache.go: XCache.Clean"]}
{"id": "C96", "title": "Objects written without their constructor", "statement": "A language table, cache or thread safe dataset written as a composite literal (the package documentation shows data := &xcore.XDatasetTS{}) can be used as an empty object. (False: exactly what happens is proved. &XLanguage{} and &XCache{} answer all reading calls as an empty object, but calls that write panic; LoadString into &XLanguage{} panics with the lock held, after which every call that needs the lock blocks for ever; a cache literal becomes usable by Flush. Every call on &XDatasetTS{} panics, and after the first Set or Del every call blocks.)", "quantifier": "every history of calls by one goroutine that recovers from panics, every literal of the exported fields, every text and document loaded", "why_tests_cant": "all histories; a blocked call is only seen if the test makes the right call before", "anchors": ["v2/xcore.go: package documentation, XDataSetTS example", "v2/xlanguage.go: XLanguage.Set, XLanguage.LoadString, XLanguage.LoadXMLString", "v2/xcache.go: XCache.Set, XCache.Flush", "v2/xdatasetts.go: XDatasetTS.Set, NewXDatasetTS"]}
{"id": "C97", "title": "Rendering by several goroutines at the same time", "statement": "Goroutines that call Execute at the same time, with the same or with different templates, on thread-safe data that they share, do not disturb each other: each gets the text that it gets alone, none panics, and all end. (False in general: a loop stores .counter in its rows, so goroutines that loop over the same rows at different positions see each other's numbers. True when rows have one position, .counter is only used as {{.counter}} directly in a row, and no dataset or collection is printed.)", "quantifier": "all templates, data and numbers of goroutines, and all interleavings of their accesses to the data", "why_tests_cant": "all schedules; a test sees the schedules that happen, and the window in which two goroutines disturb each other is one step wide", "anchors": ["v2/xtemplate.go: XTemplate.Execute, XTemplate.injector", "v2/xdatasetts.go: XDatasetTS.Get, XDatasetTS.Set", "v2/xdatasetcollectionts.go: XDatasetCollectionTS.Get, XDatasetCollectionTS.Count"]}
{"id": "C98", "title": "Validators that use the cache, or panic", "statement": "The function in the field Validator may itself make calls on the same cache (any calls, also calls that lead to further calls of the validator) and may panic: no call blocks for ever, neither the calls of the validator nor later ones; nothing panics except validators, a Verify whose validator uninstalls itself, and Clean with more than 100 percent; data that Get returns are those of the last Set under the key before the Get started; no entry becomes impossible to evict; a validator that only answers gives the behaviour of the other properties. What may surprise is proved too: what the validator stores under the key it is asked about is not returned by the Get that asks and is deleted if the validator answers false; a validator that calls Get with that key never ends.", "quantifier": "every history of calls by one goroutine that recovers from panics, every behaviour of the validator at each of its invocations (unbounded nesting), every iteration order of Go maps, every clock", "why_tests_cant": "validators are arbitrary programs, nested without bound; whether a lock is held while one runs shows only if it makes the right call at the right time", "anchors": ["v2/xcache.go: XCache.Get", "v2/xcache.go: XCache.Verify", "v2/xcache.go: XCache.Validator"]}
{"id": "C99", "title": "Version 1: capacity and eviction order of the cache", "statement": "With the cache of version 1 and Maxitems = m > 0, Count() never exceeds m, and the entries that Clean and a full Set evict are those whose last Set or successful Get is oldest. (False as it stands; proved: Count stays below max(m, 10) plus the number of entries that were flushed, found expired, or refused in a Verify, and an entry whose key never had one of these is evicted only if no entry used longer ago is left. Unlike in version 2, a Verify whose validator refuses entries is enough for any number of entries to be reached, and for the most recently used key to be evicted.)", "quantifier": "every call history, every limit, every expiration setting and validator", "why_tests_cant": "a bound over unbounded histories; the keys that Verify leaves behind only show in later evictions", "anchors": ["xcache.go: XCache.Set, XCache.Clean, XCache.Verify, XCache.Flush"]}
{"id": "C100", "title": "The page, computed from plain data", "statement": "The text that Execute gives is a function of the document and of the content of the data alone, where the content is a tree of names, values, datasets and collections without addresses: fields, references with and without a dataset or a name taken from the data, loops with their variants and counters, conditions and language entries all give what the documentation says, nested as deep as one likes, with names looked up from the inside out; the data have the same content afterwards. In particular the data may be given as nested Go maps and slices to NewXDataset. (The function has no answer where a name with a counter is read outside a loop, since that depends on what was rendered before, and where a whole dataset or collection is printed.) For every document whose boxes do not come back to themselves, whose fields lead to single values, and which uses counters only where no path leads to a row by its number, the function has an answer, so that Execute ends with that page.", "quantifier": "every template text that compiles, every dataset in memory (with any sharing, wrapped or not) that has the content, every nesting of maps and slices", "why_tests_cant": "all templates times all data; rendering stores counters in the rows, so that independence of history and of sharing needs an invariant", "anchors": ["v2/xtemplate.go: XTemplate.Execute, XTemplate.injector", "v2/xdataset.go: NewXDataset", "v2/xcore.go: documentation, sections 2 and 3"]}
{"id": "C101", "title": "Version 1: validators that use the cache, or panic", "statement": "In version 1, too, the function in the field Validator may make calls on the same cache (any calls, also calls that lead to further calls of the validator) and may panic: as long as no Clean is asked for more than 100 percent, no call blocks for ever, neither the calls of the validator nor later ones; nothing panics except validators and a Verify whose validator uninstalls itself; data that Get returns are those of the last Set under the key before the Get started; no entry becomes impossible to evict; a validator that only answers gives the behaviour of the other properties. What may surprise is proved too: a Clean of more than 100 percent that panics leaves the mutex locked, so that every later call blocks, for ever; what the validator stores under the key it is asked about is not returned by the Get that asks and is deleted if the validator answers false; a validator that calls Get with that key never ends.", "quantifier": "every history of calls by one goroutine that recovers from panics, every behaviour of the validator at each of its invocations (unbounded nesting), every iteration order of Go maps, every clock", "why_tests_cant": "validators are arbitrary programs, nested without bound; whether a lock is held while one runs, or after a panic, shows only if a call comes at the right time", "anchors": ["xcache.go: XCache.Get", "xcache.go: XCache.Verify", "xcache.go: XCache.Clean", "xcache.go: XCache.Validator"]}
{"id": "C102", "title": "Collections do not share memory with each other", "statement": "Whatever arrays and capacities the Go runtime chooses for the slices behind collections, every call on a collection (Unshift, Shift, Push, Pop, Count, Get, Clone) answers as if each collection were a list of its own: no call on another collection, also not on its clone or its original, changes the elements it contains. This holds for collections made by literals, constructors and Clone, in both versions. A copy by assignment (b := *a) is different, and it is proved how: while the array has space, a Push to the copy replaces the element that was pushed to the original.", "quantifier": "every history of calls on any number of collections, every growth policy of append", "why_tests_cant": "whether append writes in place depends on capacities, which depend on the whole history and on the Go version; an overwritten element shows only with the right interleaving of calls on two collections", "anchors": ["v2/xdatasetcollection.go: XDatasetCollection.Push", "v2/xdatasetcollection.go: XDatasetCollection.Unshift", "v2/xdatasetcollection.go: XDatasetCollection.Clone", "v2/xdatasetcollectionts.go: XDatasetCollectionTS.Push", "xdataset.go: XDatasetCollection.Push"]}
{"id": "C103", "title": "Version 1: the page, computed from plain data", "statement": "In version 1, how Execute ends, with which text or with a panic, is a function of the document and of the content of the data alone, where the content is a tree of names, values, slices, language tables, datasets and collections (which may have nil elements) without addresses. The function always has an answer: fields, also of whole datasets and collections in their printed form, paths, language entries, references of one, two and three parts, loops with their variants, conditions and dumps, nested as deep as one likes, with names looked up from the inside out, and with nil instead of data. Every dataset without cycles has such a content; data with the same content, anywhere in memory and with shared parts or without, give the same page.", "quantifier": "every text with balanced boxes, all data without cycles and nil, every memory, all values of the functions of package fmt and time", "why_tests_cant": "documents and data are trees of any depth, and the rendering goes through one stack that is pushed and popped by all of them; a wrong push or pop shows only in the right combination", "anchors": ["xtemplate.go: XTemplate.Execute", "xtemplate.go: XTemplate.injector", "xdataset.go: XDataset.Get", "xdataset.go: XDataset.String", "xdataset.go: XDatasetCollection.GetData"]}
{"id": "C104", "title": "Data races of a cache", "statement": "Goroutines that use one cache race on its memory (two of them access the same cell at the same time, one writes, and the mutex does not keep them apart) exactly in these situations: two Gets of the same entry store the time of reading; SetTTL of a key is called while a Get of that key reads the TTL; another call changes the map, or Flush replaces it, while a Verify with a validator ranges over it; an exported field is assigned while another goroutine uses it. So a program in which no Get or SetTTL of a key runs while another Get of that key is running, which calls no Verify when there is a validator and does not assign the fields after the start, is free of races whatever the schedule. The four races do happen: from every state two Gets of a valid entry, and a Get and a SetTTL of a present key, can be scheduled to race, and every Verify with a validator can race with every Set, Del, Clean and Flush.", "quantifier": "every number of goroutines, every schedule, every history, all keys, data, clocks and validators", "why_tests_cant": "a race needs two goroutines at two particular points at the same moment; the race detector only sees the schedules that happen to be run", "anchors": ["v2/xcache.go: XCache.Get", "v2/xcache.go: XCache.SetTTL", "v2/xcache.go: XCache.Verify", "v2/xcache.go: XCache.Set", "v2/xcache.go: XCache.Flush", "v2/xcache.go: XCache.Count"]}
{"id": "C105", "title": "Data races of a cache of version 1", "statement": "Goroutines that use one cache of version 1 race on its memory (two of them access the same cell at the same time, one writes, and not both hold the mutex) exactly in these situations: a Get that found its entry moves its key in the eviction order while another goroutine changes that order, be it by Set, Del, Clean, Verify or the end of another Get of any key; two Gets of the same entry store the time of reading; another call changes the map, or Flush replaces it, while a Set with a limit looks at its size or a Verify with a validator ranges over it; an exported field is assigned while another goroutine uses it. So a program in which a Get of a present key and a call that changes the cache begin only when no other Get that found its entry (and, with a limit, no other Set) is running, which calls no Verify when there is a validator and does not assign the fields after the start, is free of races whatever the schedule, keeps every present key in the eviction order, and panics only in a Clean of more than 100 percent. The races do happen: from every state a Get of a valid entry can be scheduled to race with every Set, Del and Clean and with every other such Get, two Sets with a limit can race, and so can every Verify with a validator and every change.", "quantifier": "every number of goroutines, every schedule, every history, all keys, data, clocks and validators", "why_tests_cant": "a race needs two goroutines at two particular points at the same moment; the race detector only sees the schedules that happen to be run", "anchors": ["xcache.go: XCache.Get", "xcache.go: XCache.Set", "xcache.go: XCache.Clean", "xcache.go: XCache.Verify", "xcache.go: XCache.Flush", "xcache.go: XCache.Del", "xcache.go: XCache.Count"]}
{"id": "C106", "title": "Data races of a language table", "statement": "Goroutines that use one language table of version 2 never race on its entries and statuses, whatever they call. They race on its name exactly if one of them sets it (SetName, or loading an XML document that can be read) while another sets it too or reads it (GetName, GetXML), and likewise on its language; then some schedule has the race whatever else goroutines do. So a table whose name and language are set before goroutines use it, and into which no documents are loaded afterwards, is free of races. In version 1, which has no mutex, goroutines race on name, language and entries exactly if one of them writes the one concerned and another reads or writes it.", "quantifier": "every number of goroutines, every sequence of calls of each, every schedule, every text and document, every XML decoder and tag parser", "why_tests_cant": "a race needs two goroutines at two particular points at the same moment; the race detector only sees the schedules that happen to be run", "anchors": ["v2/xlanguage.go: every method", "xlanguage.go: every method"]}
{"id": "C107", "title": "Calls on nested thread-safe objects are linearizable", "statement": "Whatever calls any number of goroutines make on nested thread-safe datasets and collections: the whole history of beginnings, ends and answers, and the memory in the end, are those of objects every call of which has the effect and the answer of the sequential method at one single moment between its beginning and its end. (Entries are changed through the wrappers of datasets that nothing else refers to; answers are claimed for Get with paths through such datasets, possibly to an element of a collection, and for the methods of collections that do not look into elements. For paths that go on behind an element it is false.)", "quantifier": "every heap of nested objects, every number of goroutines, every sequence of calls, finished or not, every order of turns, new objects made at any moment", "why_tests_cant": "a history is explained by one order of all calls of all goroutines; the number of schedules and of possible orders is unbounded", "anchors": ["v2/xdatasetts.go: XDatasetTS.Get, Set, Del, String, Clone", "v2/xdatasetcollectionts.go: XDatasetCollectionTS methods", "v2/xdataset.go: XDataset.Get"]}
{"id": "C108", "title": "Version 1: comments and line ends in templates", "statement": "In version 1, two template texts with the same elements up to comments and to how literal text is cut into pieces either both compile or both fail, and end in the same way for all data. In particular a comment can be put anywhere outside the meta elements, also with delimiters in it, into a text whose literal pieces contain no opening delimiter; with a stray one it can change the page. Behind a comment or a box tag exactly one end-of-line character is dropped: of two characters the second one stays.", "quantifier": "every text, every position outside the meta elements, every comment, all data or nil", "why_tests_cant": "elements of version 1 may contain any character, so whether the rest of the text is still read in the same way after an insertion depends on everything that follows", "anchors": ["xtemplate.go: XTemplate.compile", "xtemplate.go: XTemplate.injector", "xtemplate.go: XTemplate.Execute"]}
{"id": "C109", "title": "Version 1: pages from cloned data", "statement": "In version 1, if Clone of a dataset ends, the clone has the same content as the dataset, a tree of names and values without addresses; so Execute with the clone ends as with the data, also if parts of the data are shared, and String and GoString are the same. A clone is a snapshot: whatever is done afterwards to objects that existed before by calls on datasets and collections, Execute with the clone still gives the page the data had when they were cloned; and whatever is done to the clone, Execute with the data gives the page they had. Slices inside are shared: writing to their elements is seen on both pages.", "quantifier": "every text with balanced boxes, all data, every program on either side", "why_tests_cant": "the page depends on data of any depth, and the snapshot must hold against every later history of calls", "anchors": ["xdataset.go: XDataset.Clone", "xdataset.go: XDatasetCollection.Clone", "xtemplate.go: XTemplate.Execute"]}
{"id": "C110", "title": "Version 1 and version 2 render the same page", "statement": "A template text that version 1 reads as a document is read as the same document by version 2 exactly if its elements have only characters that version 2 allows in them. If moreover the elements of the document name only boxes of the document they stand in (or boxes that are declared nowhere around it), no element uses a counter or is a dump, fields lead to single values, loops lead to at least one row or to nothing, and the values of conditions are there and have a non-empty text, then Execute gives the same text in both versions for the same data, without panic. The conditions on loops, conditions, counters and boxes are needed: with an empty collection, a loop over a single value, a missing, empty or dataset value in a condition, a counter, a box of an enclosing document, a blank in an element or a nil row the pages differ.", "quantifier": "every template text that meets the conditions, all data", "why_tests_cant": "whether a page can be moved to the other version depends on every text and all data, at every depth", "anchors": ["xtemplate.go: XTemplate.compile", "xtemplate.go: XTemplate.injector", "xtemplate.go: XTemplate.Execute", "v2/xtemplate.go: XTemplate.compile", "v2/xtemplate.go: XTemplate.injector", "v2/xtemplate.go: XTemplate.Execute"]}
{"id": "C111", "title": "A cache of files is never out of date", "statement": "A cache whose keys are paths of files and whose Validator is the FileValidator of the package documentation (valid if the file exists and is not newer than the entry) returns, whenever Get finds something, what the file contains at that moment; after Verify all that is in it is up to date. With several goroutines and files that change at any time, what Get returns was the content of the file at some moment during this Get. A file that does not change is served from the cache, and one that is newer or gone is reported as invalid. This holds if what is stored is what the file contains and files that change get a later time than that of storing; it is false, with old data returned for ever, if a file is replaced by one with an older time, is changed at the very instant of storing, or is changed between reading and Set.", "quantifier": "every history of cache calls and changes of files, every interleaving of goroutines, all clock readings", "why_tests_cant": "the claim is about all histories of changes of files between the calls, and all interleavings with them", "anchors": ["v2/xcore.go: FileValidator", "v2/xcache.go: XCache.Get", "v2/xcache.go: XCache.Verify", "v2/xcache.go: XCache.Set", "xcore.go: FileValidator", "xcache.go: XCache.Get"]}
{"id": "C112", "title": "Version 1: caches written without their constructor, and caches after a panic", "statement": "A cache of version 1 written as a composite literal can be used as an empty cache. (False: exactly what happens is proved. The literal answers all calls as an empty cache with the same fields; the first Set panics with the mutex locked, after which every method blocks for ever, also Flush; if Flush is called before the first Set, the cache is as good as one made by NewXCache.) A cache made by NewXCache answers as the sequential model says, and after a Clean or Set that panics every method blocks for ever.", "quantifier": "every history of calls by one goroutine that recovers from panics, every literal of the exported fields, all clock readings and validators", "why_tests_cant": "all histories; a blocked call is only seen if the test makes the right calls before", "anchors": ["xcache.go: XCache.Set", "xcache.go: XCache.Clean", "xcache.go: XCache.Flush", "xcache.go: XCache.Verify", "xcache.go: NewXCache"]}
{"id": "C113", "title": "Version 1: rendering by several goroutines, while others change other things", "statement": "Goroutines that call Execute of version 1 at the same time, with the same or with different templates, on data that they may share, while other goroutines change anything that does not belong to these data, do not disturb each other: in every order of their accesses each ends as it ends alone, with the same text or the same panic, and all end. A goroutine that renders looks only at objects that can be reached from its own data, and changes none. If somebody changes the data themselves meanwhile, the page can be a mixture of before and after.", "quantifier": "all templates, data, numbers of goroutines and changes of other objects, and all interleavings of the accesses to objects", "why_tests_cant": "all schedules; a test sees the schedules that happen", "anchors": ["xtemplate.go: XTemplate.Execute", "xtemplate.go: XTemplate.injector", "xdataset.go: XDataset.Get", "xdataset.go: XDatasetCollection.GetData"]}
{"id": "C114", "title": "Rendering by several goroutines of data without common rows", "statement": "Goroutines that call Execute (version 2) at the same time, with any templates, on data that may have parts in common but no rows (no dataset that is an element of a collection in the data of one belongs to the data of another), do not disturb each other: in every order of their accesses each ends as it ends alone, with the same text, the same panic and the same data afterwards; all end; the order has no effect on the results or on memory; and the data need not be of the thread-safe types, because no goroutine changes anything that another one looks at. All this holds also while other goroutines change objects that do not belong to the data of any of these calls. With a common row this is false, even for thread-safe rows.", "quantifier": "all templates, data without common rows, numbers of goroutines, and all interleavings of the accesses to the data", "why_tests_cant": "all schedules; a test sees the schedules that happen", "anchors": ["v2/xtemplate.go: XTemplate.Execute", "v2/xtemplate.go: XTemplate.injector", "v2/xdataset.go: XDataset.Set", "v2/xdataset.go: XDataset.Get"]}
{"id": "C115", "title": "Version 1: only the names an element can choose matter", "statement": "In version 1, texts with the same elements, in which the boxes that the elements beside them can choose are alike, render the same for all data: the same text, or both panic, or neither ends. A box none of whose names can be chosen by an element at its own level does not matter, whatever is in it, even if elements in other boxes name it. A name that an element can only choose for certain data (??v:b?? chooses b.x if v is x) does matter. The same holds of templates however they were made (loaded or put together with AddTemplate): templates with the same elements that have the same under every name these elements can choose render the same. And every such name matters: for each there are two templates that differ in this name only, and data with which they render differently.", "quantifier": "all pairs of texts that differ in such boxes only, all pairs of templates in memory, all elements and names, and all data", "why_tests_cant": "all texts and all data; which names are chosen depends on the data", "anchors": ["xtemplate.go: XTemplate.injector", "xtemplate.go: XTemplate.GetTemplate", "xtemplate.go: XTemplate.LoadString", "xtemplate.go: XTemplate.AddTemplate"]}
{"id": "C116", "title": "Templates that look the same render the same", "statement": "What Execute does depends only on the elements of the template and on the templates seen (with GetTemplate) under the names that these elements can choose: if two templates, made in any way, have the same elements and under each such name both see nothing or see templates that again look the same, Execute gives the same text, the same changes of the data, the same panics, or ends for neither. So it does not matter where a box stands among the elements of its level, when a text was loaded and which other templates exist; a box may be moved out of the box that uses it if the names are seen as before. Exactly these names count: for each name that an element can choose there are data with which it matters what is seen under it.", "quantifier": "all pairs of templates in any memory (loaded, unloaded, put together by AddTemplate, cyclic), all texts, all data", "why_tests_cant": "all templates however made, all data; sameness is a relation between whole graphs of templates, possibly cyclic", "anchors": ["v2/xtemplate.go: XTemplate.Execute", "v2/xtemplate.go: XTemplate.injector", "v2/xtemplate.go: XTemplate.GetTemplate", "v2/xtemplate.go: XTemplate.LoadString"]}
{"id": "C117", "title": "Version 1: only what a template looks up in its data matters", "statement": "In version 1, what Execute renders depends on the data only through what the elements of the template, and of the templates in it, look up: for each path an element names, whether there is a value, and of the value what the element uses (the text of a field, the dataset of a reference, the rows of a loop, the text that a condition tests). Data in which these look the same, in the same or in different memories, give the same text, or both panic, or neither ends. In particular setting or deleting an entry that is neither a segment nor the rest of a path the elements name, in any dataset, does not change the page, unless the template prints whole datasets or collections, has a dump, or the entry is the language table and there are language elements. A field that is a dataset does show entries that no element names.", "quantifier": "all templates however made, all pairs of data that look the same to the template (cyclic data included), all datasets, entries and values set or deleted", "why_tests_cant": "sameness is a relation between whole graphs of data, possibly cyclic; all templates and all data", "anchors": ["xtemplate.go: XTemplate.Execute", "xtemplate.go: XTemplate.injector", "xdataset.go: XDataset.Get", "xdataset.go: XDataset.Set", "xdataset.go: XDataset.Del", "xdataset.go: XDatasetCollection.GetData"]}
{"id": "C118", "title": "Entries that a template does not ask for do not matter", "statement": "In version 2, writing or deleting an entry that no element of the template, or of a template that one comes to from it, asks for, in any dataset and through thread-safe datasets too, does not change what Execute does: the same text before and after, or both panic, or neither ends, and the data differ in this entry only afterwards as well, although Execute writes counters into the rows of loops. An element asks for the segments of the path it names and for the rests of it from a segment on. Excepted are templates that dump the data or take the text of datasets or collections, which show all entries, and the entry of the language table. Conditions may test datasets if there are no cycles in the data before and after. A field that is a dataset does show entries that no element names; and because a condition on a dataset prints it, Execute may not end any more after such an entry has been set to the dataset itself.", "quantifier": "all templates however made, all data (cyclic data included), all datasets, entries and values set or deleted", "why_tests_cant": "all templates and all data; rendering changes the data while it goes on", "anchors": ["v2/xtemplate.go: XTemplate.Execute", "v2/xtemplate.go: XTemplate.injector", "v2/xdataset.go: XDataset.Get", "v2/xdataset.go: XDataset.Set", "v2/xdataset.go: XDataset.Del"]}
