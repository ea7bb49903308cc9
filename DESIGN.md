# Formal model of nzbget in Lean 4: design

The model lives in `lean/Verif/`. For each component there are up to three files:
`X.lean` (the model; every definition cites the file and lines of /repo it models and says
what is simplified), `XSpec`/`XLemmas` (independent specification, helper lemmas) and
`XProps.lean` (the property theorems, each with a concrete `example` that meets the hypotheses).

## Trusted base

* Lean 4.33.0's kernel. Axioms: every property theorem depends at most on `propext`,
  `Classical.choice`, `Quot.sound` (checked with `#print axioms`). No axiom is added, no `sorry`,
  `native_decide` or `bv_decide` is used.
* The translation from C++ to Lean definitions is by hand; it is the reader's to check against
  the cited lines.
* C++ `char` strings are lists of bytes without the terminating NUL unless noted. Integers are
  `Nat`/`Int` where the code's values cannot overflow in the stated domain, `BitVec`/modular where
  wrap-around is part of the behaviour. Out-of-range accesses are a distinct outcome of the model.
* Locks: each method that holds a mutex from start to end is one atomic step.
* Operating system, sockets, clock, random numbers and TLS are parameters (oracles) of the model.

## Not modelled

The curses/coloured frontends, Windows service code, TLS, the par2 library, unrar/7z processes,
SIMD variants of the yEnc decoder and CRC (only the scalar/slicing versions are modelled), the web UI.

## Properties and plan

* **C01 yEnc body decoding does not depend on how the network splits the data.** Model `decode_scalar` on byte lists (states, two byte look-ahead, end codes), prove it equal to a one byte automaton by induction, then chunk independence follows from the automaton being a fold.
* **C02 yEnc round trip.** Model `WriteSegment`'s inner loop, prove by induction over the data (line position as state) that the automaton of C01 inverts it.
* **C03 CRC-32 implementation computes the standard CRC-32.** Model tables and the three loops of `crc_slice`; spec is the eight-shift bitwise CRC. Tables checked against the spec entry by entry in the kernel (the table is the finite object); the rest by xor-linearity and induction.
* **C04 CRC combination.** Model `gf2_matrix_times/square` and `Combine` on BitVec 32; prove matrix application linear, squaring = composition, hence zero-byte advance operator to the power len.
* **C05 A yEnc article is accepted only when its size and CRC agree.** Model the decoder's record and `Check`/`CheckYenc`; decision theorem plus invariant over all buffers that the size/crc fields describe the produced output.
* **C06 A decoder reused for a retry behaves like a new one.** Model `Clear`; refuted by a concrete history (the format field is not cleared), partial theorem for the case the format is detected again.
* **C07 End-of-article detection in raw mode is independent of chunking.** Model `ProcessRaw`; refuted by a concrete three-way cut; partial theorem for two-way cuts.
* **C08 Buffered line reader loses and reorders nothing.** Model `ReadLine` with the socket as a list of chunks; prove refinement to a pure splitter of the concatenated stream.
* **C09 A server connection is never used by two downloads and MaxConnections is respected.** State machine over connections and servers; invariant by induction over operations.
* **C10 Connections come only from allowed servers, backup levels are used only when every server of the better level is optional and blocked.** Decision theorem over every pool state.
* **C11 Server levels are normalised to 0..max without holes, preserving order.** Model `NormalizeLevels` over the sorted list; induction.
* **C12 The free connection counter of a level equals the number of free connections.** Invariant over operations without reconfiguration; refuted for reconfiguration while connections are in use.
* **C13 An article is declared failed only after every eligible server was tried.** Loop of `Run` as a transition system with an oracle for outcomes; invariant over steps.
* **C14 Saving a state file is crash atomic.** File system with two names, protocol as a list of atomic steps, crash = prefix; all histories of saves/crashes/restarts by induction.
* **C15 A completed download survives a crash between the queue file and the history file.** Composition of two C14 protocols; refuted for the code's order.
* **C16 Queue item settings survive a restart.** Record printer/parser on lines and fields; round trip; refuted for the duplicate mode field.
* **C17 Partial file progress survives a restart.** Same technique for file state; refuted for offsets of 4 GiB and more.
* **C18 Server statistics are matched to servers injectively across configuration changes.** Model `MatchServers` candidate elimination; invariant.
* **C19 Scheduled tasks run exactly once per due time.** Model `CheckTasks` arithmetic on Int seconds; telescoping intervals, induction over ticks.
* **C20 Moving queue entries never loses or duplicates one.** List model of moves; permutations and exact positions.
* **C21 Splitting a download keeps the counters consistent.** Record of counters + file list; theorem for the counters handled, refutation for the paused count.
* **C22 Merging downloads keeps the counters consistent and reports success.** Same record; refutation of the return value.
* **C23 Pausing and priority edits keep the parent's counters exact.** Counters.lean: invariant (counters = sums over files) over histories of edits, finished, failed, completed, deleted and discarded files.
* **C24 Health never leaves 0..100% and is 100% only without damage.** Health.lean: integer arithmetic from the invariant of C23, overflow as undefined.
* **C25 The next article comes from the most urgent eligible download.** List model of the selection loop.
* **C26 Duplicate handling keeps at most one active copy and picks the best backup.** Dupe.lean: ReturnBestDupe over lists of history and queue entries; the chosen entry is characterised exactly (chosen_backup_iff) by a specification of backups, successes and ranks.
* **C27 Download volume is conserved.** State machine over day slots; induction.
* **C28 Per-second/minute/hour charts show only recent data.** Refuted by witness; partial for gaps below one unit.
* **C29 Speed meter total equals the sum of its slots.** Invariant by induction.
* **C30 The quota stops downloads exactly when the limit is reached.** Decision theorem plus calendar slot theorem.
* **C31 Article cache accounting is exact.** Invariant over operation sequences.
* **C32 A file assembled from its articles has every article at its offset.** Sparse file model; induction over segments.
* **C33 Writing a decoded article never leaves its segment.** Invariant over write sequences.
* **C34 Feed filter: the first deciding rule wins.** `FeedFilterProps.first_deciding_rule`: recursion over the rules; the result is described by a relation which follows the rules passed.
* **C35 Feed filter expressions evaluate to their boolean meaning.** Model of the thirteen string reductions; a left-to-right machine whose language is kept by every reduction; refuted for mixed groups and negated brackets, proved for all others from the text of the rule.
* **C36 Wildcard masks match exactly the glob meaning.** `WildMaskProps`: pointer loop with backtracking modelled with fuel; equivalence with an inductive glob relation.
* **C37 Web access is granted exactly to holders of matching credentials.** The check of credentials, the parsing of headers, url and cookies and the loop over a connection as functions on bytes; decision theorem against an independent relation, soundness for any bytes, completeness for well-formed requests.
* **C38 Static file requests cannot leave the web directory.** The path of every file which is read to answer any bytes; inductive predicate for names which stay inside of a directory.
* **C39 File names made from untrusted input are valid.** String functions; induction.
* **C40 A generated unique file name never collides.** Search over naturals; injectivity of names and pigeonhole.
* **C41 Base64 decoding inverts RFC 4648 encoding.** Table decoding; round trip by induction over quartets.
* **C42 XML API text is well formed and round trips.** Encoder/decoder on byte lists; induction.
* **C43 JSON API text is well formed and round trips.** Encoder/decoder on byte lists; induction.
* **C44 64-bit sizes survive the hi/lo split of the API.** Join/Split over BitVec 64.
* **C45 Calendar conversion is the proleptic Gregorian calendar.** Integer arithmetic against an independent day count.
* **C46 Recognising volumes of a par2 set is consistent.** String functions; relation properties.
* **C47 Parsing an NZB file list accounts every article once.** The handlers of the XML-parser as state machine on events, with null pointers and freed objects; the specification renders a list of proper entries to events; induction over segments and entries; invariant for arbitrary events without nesting; refuted for nested elements.
* **C48 Articles survive the whole receive path.** Stage invariant over the buffers (header, part line, body, end line, end marker).
* **C49 Uuencoded articles are decoded to their data.** Refuted by a witness; the decoding of a single line is proved correct.
* **C50 The article decoder always terminates.** Fuel-bounded line loop, proved never to run out.
* **C51 A server is given up for general failures only after ArticleRetries attempts.** Refuted by a witness (retry counter survives a change of server); proved when connecting always works and without groups.
* **C52 Saved progress of queue items is what the next start shows.** Byte steps of the three files; progress application to an arbitrary queue. Refuted for a crash in the first progress save after a queue save.
* **C53 A repairable download is never cancelled by the health check.** Health.lean: the rounded quotients with 64-bit overflow; inequality between health and critical health; refuted when par2-data failed.
* **C54 A restart does not change the progress which is shown.** Counters.lean: the counters computed on load (UpdateCurrentStats) equal the incremental ones in every reachable state; refuted after a split.
* **C55 A new download is left out exactly when the same or a better one is there.** Dupe.lean: NzbFound with the loop over the changing queue (iterator and index as numbers); scanQueue_eq shows that every entry is handled once; the decision is characterised exactly.
* **C56 The history is cleaned up by age and by marks only.** HistoryWork.lean: the backward loops with erasing and replacing; reverse_loop shows that they are a filterMap; hidden records compared with the downloads by the predicates of C26.
* **C57 References of a feed filter are the texts matched by its wildcards.** `WildRefProps`: the recorded positions against an inductive relation `Refs`; invariant of the loop. Refuted for masks which mix `*` and `?`; proved for masks without `*` and for masks whose only wildcards are stars.
* **C58 A condition on a text is met by a word or by a part of the text.** `FeedFilterProps`: words as longest runs without separators, stripped of blanks; MatchText against `Glob` of C36.
* **C59 An item which a feed keeps listing is downloaded once.** `FeedHistoryProps`: state machine of fetches, clean-ups and finished urls with an arbitrary clock that does not go backwards; invariant relating the time an item was last seen to the last update of its feed.
* **C60 A feed is fetched at its interval and retried sooner after failures.** Closed form of the delay by induction over the results; arithmetic of the due test.
* **C61 A fetch adds exactly the new items, and none of the backlog.** Induction over the items.
* **C62 The memory of the feeds survives a restart.** Writer and reader of the state file over the text layer of C12-C14; refuted for long urls.
* **C63 A new item of a feed is not lost.** Two-thread model with crash points; refuted, proved for the safe order.
* **C64 Feed items which are the same title get the same duplicate key.** The key as a function of options and item; described by an independent relation, injectivity by reasoning about decimal numbers and dashes.
* **C65 Reading texts of XML documents and descriptions stays inside of the text.** Decoder as recursion over the text with an outcome for reading behind it; refuted for texts ending in a reference, proved for the others.
* **C66 The parameters of a JSON request are found as they were sent.** Scanner of values against an inductive grammar of string bodies; refuted for adjacent escapes.
* **C67 Reading texts of JSON requests stays inside of the text.** Decoder with an outcome for reading behind the text; refuted for incomplete escapes, proved for texts of complete elements.
* **C68 Percent-encoded texts are decoded correctly and safely.** Decoder against an inductive percent-encoding relation; refuted for incomplete codes at the end.
* **C69 File names given by web servers are read correctly.** Against an inductive grammar of quoted strings; refuted for quoted pairs. Latin-1 against UTF-8 by induction.
* **C70 The time of a feed item is its instant in universal time.** Integer arithmetic of sscanf results; refuted for zones less than an hour ahead.
* **C71 Requests of one connection are kept apart.** The loop over a connection; induction over the requests using a lemma for one request with anything behind it.
* **C72 Users with limited access can do only what they are allowed to.** Dispatch, CreateCommand, MutliCall and the answers of config and loadconfig as functions on bytes; the member which is not set is a parameter; noninterference for two sets of values.
* **C73 Links change nothing.** The same model; a list of the commands which change something as specification.
* **C74 The command which is named in a remote call is executed.** The same model; an inductive meaning of names, computed for the text around the name.
* **C75 Downloads are stored in the configured directory.** BuildFinalDirName as function on bytes; the specification splits paths at separators and forbids the part `..`.
* **C76 The par2-files needed for a repair are downloaded, and no others.** FindPars and RequestMorePars on lists of files; the sort is any function which sorts; invariants of the loops.
* **C77 The name of a file is taken from its subject.** ParseSubject and BuildFilenames as functions on bytes with reads outside of the buffer as undefined; relational specification of words, suffixes and extensions.
* **C78 The same content gives the same hash.** CalcHashes and HashBJ96 on 32-bit words; std::sort is any function which sorts.
* **C79 Post-processing of every download ends.** StartJob, CheckRequestPar and CleanupJobs for one job and the ends of all stages as functions; results of stages and the state of the disk after each stage are parameters; termination by a measure and an invariant.
* **C80 A download which could not be repaired is left alone.** The model of C79; invariance of the failed state along every course, and a case analysis of the entered stages.
* **C81 Scripts are executed once, after everything else, and their request for a par-check is fulfilled.** The model of C79; induction over courses.
* **C82 Unpack is given up only after a par-check.** The model of C79; an invariant says that a second attempt to unpack comes after a par-check.
* **C83 Jobs of post-processing can be deleted at any time.** The whole post-queue as a transition system: every section which holds the lock of the queue is one event, threads appear as the events by which they report; use of invalid pointers is a distinct result; invariant over all histories.
* **C84 No more post-processing at once than the strategy allows.** The model of C83; the running stages are among the active jobs which are counted; invariant over all histories.
* **C85 Post-processing follows priorities and the pause.** PickNextJob as a fold over the queue; a relation between the queue before and after CheckPostQueue.
* **C86 Starting of post-jobs ends and forgets no job.** The model of C83; a potential of every job which decreases in every round of the loop.
* **C87 Moving a download to its destination loses and overwrites nothing.** Directories as lists of entries, the operating system as an oracle which answers every rename and copy; induction over the files with the entries of both directories as invariant.
* **C88 Unpacking replaces archives by their contents and loses nothing.** The model of C87; the names of archives are given by a separate specification of the regular expressions.
* **C89 The cleanup deletes exactly the files with listed extensions.** Trees of files; induction over the tree; the option by the specifications of tokens and of masks.
* **C90 A joined file is complete.** The loop over the directory and the loop over fragments; counting of different numbers in a range.
* **C91 The headers of rar volumes are read as written, and reading ends for every file.** A reader monad over the contents of the file with the position and the rest of the block; a separate encoder of volumes gives the specification, the round trip is proved block by block. For all other contents: every round reads something, so the position is a measure unless a block is of negative size.
* **C92 Renaming of obfuscated rar files loses nothing and names only complete archives.** All files with full names and contents; the volumes with the names under which they were read; sets, checks of names, search of a free name and renaming as in the code, the reader is any function of the contents. Permutation of the contents by induction over moves, sets and directories; sets against a separate definition of an archive; good names against a separate definition.
* **C93 Incoming nzb-files are processed when they no longer change.** The list of watched files as in the code; a history is a list of scans with times and sizes. The list is reduced to what happens with the entry of one file; invariant over histories: the entry was made by a scan which saw the file, and has its last size.
* **C94 Each incoming nzb-file is added exactly once and nothing is lost.** The directory with contents; scan, search for a free name and renaming as in the code, parsing and failures of renaming are functions. Induction over the names which are left to process.
* **C95 Requests which add nzb-files at the same time do not disturb each other.** A transition system: threads in AddExternalFile with a position each, the directory, the list of requests, the requested scan; invariants over all schedules. Requests for which the program would go wrong are excluded by explicit hypotheses, and runs which violate the claim are given.
* **C96 Files are renamed by par2-files without loss, to the names recorded for their contents.** One directory as a list of entries with contents; MD5, the reader of par2-packets and the answers of the operating system are functions. Invariants over the loops of the renamer: the contents are permuted, the records keep their names and hashes; the search for a free name by the pigeonhole principle.
* **C97 An added URL is fetched once at a time, is never lost, and is not added after its deletion.** A transition system of the queue, the history and the threads which fetch; each block under the guard of the queue is one step and each statement outside of it another. An invariant over all schedules in which nobody acts between the two statements of a retry; the limit is proved for all schedules. The excluded schedules are refuted by witnesses.
* **C98 A download returned from the history fetches exactly what is missing.** Functions for the end of a file, the parking of files and the return from the history, on a disk of stored states and output files. What was recorded about the articles is a specification of its own; a loop invariant relates the queue, the stored states as they are loaded later, and the totals to it, for downloads whose stored states agree with themselves, which the end of a file is proved to establish.
* **C99 The configuration file means what it says.** The list of entries as a list, lookup ignoring the case with the renaming which the code does, the expansion of references as a loop with a bound, the reading of the file with fgets of the size the code passes. A specification of its own gives the meaning of a file line by line; induction over the lines. What holds of arbitrary bytes is proved by induction over the loop.
* **C100 The value of an option means what the manual says.** ParseEnumValue over arbitrary tables of names and numbers with the count as the caller passes it, a read behind the end as an outcome of its own; the tables of the program as constants. strtol with its end pointer for the bases used. Induction over the loops; the specification says which texts write which number.
* **C101 A task of the scheduler runs at the times and on the days which its definition says.** The parsing of times and weekdays character by character, the list of times with the minutes carried from one time to the next as the code does, the numbered sections as a loop with fuel whose end is proved for every store. The specification is a grammar of times and days and their meaning; the link to the scheduler is its predicate Due of C19.
* **C102 A command line is split into the arguments which were written.** The loop of SplitCommandLine as a state machine with the buffer of 1024 bytes. The specification is the writing of a list of arguments; induction over the arguments and over the text.
* **C103 Servers, categories and feeds have the values which their options say.** The bodies of the three loops over an arbitrary function from names to values, with the constructors which fill in names; the loop over the numbers is that of C101, its end is proved for every finite store. FindCategory with the pattern matching of C36. The specification says what an option must hold for each field.
* **C104 A download gets the parameters of its category, and a change of the category or a scan-script changes only what it says.** Lists of parameters as the code changes them, the loops over names and scripts as folds; the specification speaks only of the value found for each name. A relation (where nothing was given, yes for those in a set) is composed along the loops.
* **C105 A URL is asked for at the host, port and path which it names, redirections follow the rules, and a server cannot choose where the file is stored.** ParseUrl, the request lines, ParseRedirect and ParseFilename as functions on bytes (buffers of 1024 bytes included). The specification writes a URL out of its parts and asks that they come back.
* **C106 A URL is complete only with the whole document, whatever arrives in whatever pieces, and the number of requests is limited.** One request as a function of what the world answers (connection, bytes, sizes of pieces, zlib, disk), then redirections and retries as loops with counters. Specification: a response written from its lines; the turns of an undisturbed download as a recursive sequence and the first turn after which it is over.
* **C107 Saving the settings writes exactly the given options and keeps the rest of the configuration file.** The file as its lines and an unended rest; LoadConfig, SaveConfig and the merging of old script options as functions on bytes and lists. Specification: the list of lines after saving, then what reading it gives (round trip), the filter of the lines which are not options, idempotence; the entries before and after merging, place by place.
* **C108 A new collection takes its place in the queue, and of a file which is listed twice the bigger one is kept.** AddNzbFileToQueue and CheckDupeFileInfos as functions on lists of files and entries; the answer of the duplicate check is a parameter, the use of freed memory an outcome. Specification: which file of a name is kept, the queue before and after as a list with one entry inserted or replaced, counters as sums.
* **C109 Changing the name or the category of a download moves what was downloaded and loses nothing.** SetQueueEntryCategory, SetQueueEntryName, BuildDestDirName and MoveCompletedFiles over a disk of directories (model Files); what the operating system answers to each move is a parameter. Specification: what is at each path before and after.
* **C110 The parameters of remote calls arrive as they were sent.** The readers of parameters (numbers, truth values, texts) for the three ways of sending them, over the rest of the request and with the pointer behind the end as a value of its own, and the commands editqueue, append, saveconfig, editserver, rate and scheduleresume up to the call they make. Specification: a relation between a list of parameters and the texts which send it.
* **C111 Edits of the queue change exactly the files and entries which are named.** Files and entries of the queue with their properties; the selection by ids with its range check, by names and by regular expressions (a parameter), the loops over the selection, the choice of par-files per entry, and deletion as removal where use of a removed entry is an outcome of its own. Specification: the queue in which exactly the files given by a predicate are paused, or exactly the entries with the ids are changed.
* **C112 Sorting the files of an entry gives the order in which they are needed.** The comparison of SortGroupFiles as a function on names, sizes and marks; std::sort by its contract (sorted permutation if the comparison is a strict weak order, nothing otherwise). Specification: which file may stand before which, with the order of texts defined by the first difference. Proved: for lists in which no name comes between parts of an archive or volumes of a collection the comparison is such an order; otherwise circles.
* **C113 The log shows the latest messages and queries get the ones they ask for.** The log as a state machine (messages, last id, lines of the file, options known or not) with the events message, clear, options read, InitOptions; queries as functions on the list. Specification: the messages among the events which go to the screen or to the file, and `the last n of a list`. Proved by induction over the events; ids are consecutive in every reachable state, from which the queries follow.
* **C114 The log of an entry survives restarts and crashes.** The file as bytes: lines written by AppendNzbMessage, read by ReadLine with its buffer of 1024 bytes and taken apart at tabs. Specification: the list of messages with what is kept of each. Proved by induction over the messages; a torn line merges with the next one, and the merged line still has three tabs wherever it was torn.
* **C115 Queue scripts get every event, one script at a time.** The coordinator as a state machine (waiting items, running item) with the events: something happens to an entry, the running script ends, stop; what is known of entries when a script ends is arbitrary. Every item gets a ticket, so that `exactly once` is a permutation of all tickets. Invariants by induction over the steps; the loop of CheckQueue, which starts again after each removal, is shown to compute a filter and to choose the last item.
* **C116 The quick par2 verification says the truth about the files on disk.** The functions of the quick verification over lists of bytes and of articles; CRCs of files, blocks and articles are those of C05, so that combining them is concatenation. That damage is noticed follows from the CRC itself (CrcDetect.lean: the state is a bijection of four bytes fed and of the state before). Ranges by induction over the blocks, against a separate definition of maximal runs of valid blocks; the CRC of a range under the condition `Covered` on how articles lie against it, with theorems for the cases outside of it.
* **C117 The dialogue with a news server.** The connection as a state (status, remembered group) with a log of everything said on the current connection; the server and the network are an arbitrary list of what happens whenever an answer is awaited. The properties are about the log. Recursion of the authorisation by its counter; the group by an invariant over all sequences of operations without losses, and universal counterexamples with them.
* **C118 Requests between the program and its own remote control.** Server and client as functions on bytes: the client writes a request, the server reads any list of bytes; reading outside of a buffer is an outcome of its own. Access and completeness for all bytes, round trips for all arguments of the client by lemmas about consecutive fields, and universal counterexamples where lengths are not checked.
* **C119 Answers to the remote control.** All entries are of one form (integers, lengths of texts, integers, texts, padding); one lemma about writing and reading it at any position, by induction for lists of entries. The sizes calculated by the server are shown equal to the bytes written by comparing sums of aligned sizes. Fields which the server does not set are a parameter.
* **C120 Scripts get their settings and their answers take effect.** The output is a list of bytes cut into pieces as fgets does; messages and commands are a fold over the pieces. Nested calls of AddMessage are a recursion with a depth, reading behind a text is a result of its own. Executed scripts are shown to be a prefix of the chosen ones by induction over the list of scripts. The environment is a list; membership is proved in both directions.
* **C121 Renaming during the download finds the right names and loses no file.** The analyzer is a fold over the pieces of an article; an invariant ties it to the bytes so far. The result of std::sort is any sorted permutation. Renaming is a fold with the directory of C87 as state; that nothing is lost is proved by induction with the condition that nothing is in the way as invariant, and refuted for all names where it is.
* **C122 Unpacking during the download is correct for every schedule.** A transition system of two threads and of unrar with a step for each critical section or look at a variable; an inductive invariant of 28 clauses is kept by every step (proved for each place of the thread and each event). What must never happen follows from it; where the program breaks the property, a schedule which leads there is given, and that the bad state stays is proved for all following steps. Reading of lines is a loop over the buffer with what it contained before.
* **C123 Success of unpacking is reported only if the unpackers have unpacked everything.** Functions over the state of the controller; the processes (lines, exit code, moments of stopping) are given from outside, by the number of the call. The processes which were started, with what they printed, are recorded; an invariant over the lines of a process links the flags with what it printed, induction over the lines of the password-file gives the order of attempts. Composed with the end of the stage (C81) for the status of the job.
* **C124 Deleting a directory deletes all that is in it and nothing outside.** The file system is a list of entries with paths, links are resolved as in POSIX, names are formatted into 1024 bytes; the recursion has a depth, and running out of it is an outcome of its own. Induction over depth and names, with an invariant that the path used still leads to the directory whatever was deleted in it (also through a link). Links to directories are followed and paths of 1022 or 1023 bytes do not end: both are proved.
* **C125 Commands for history entries touch only the named entries and their files.** The commands are functions over queue, history and disk (the file system of C124, paths with . and .. resolved). Induction over the ids gives that others are untouched and the result; what is on disk afterwards is characterised entry by entry. The cases in which files of other downloads are deleted are proved as such.
* **C126 After a restart queue and history are what was saved, and the cleanup deletes only leftovers.** The directories are lists of names and contents; the start is a function over them which reads the texts with the readers of C16 and C17. What is saved is described separately (Stored); that it comes back is proved by following the loading step by step, the loop over the names of the directory by induction, in any order of the names. What the cleanups keep and delete is proved for all names. Reading of files of older versions is a parameter.
* **C127 What is paused stays paused and what runs is not paused, until someone asks for it.** The flags of the work state are a record and everything that sets them is an event; runs are lists of events of any length. What ends and what begins a pause is proved by induction over the run, with the time of a scheduled resume traced back to the request. The tests of the flags before something is started are functions of the state. Only the flags: which tasks are executed when is C19/C101.
* **C128 The speed limit holds in every second, and nobody waits for ever because of it.** Any number of connections as a list of those which passed the check; runs are interleavings of checks and reads over the model of the speed meter (Quota.lean). Invariant: bytes of the current second plus one piece for each connection under way. Changes of the limit and the reset when downloads begin again start a new run.
* **C129 Up time and download time are the real ones.** The four times as a record, events of the coordinator; the download time is compared with the sum of the intervals with downloads (induction with an accumulated value).
* **C130 Every background service works once per interval.** One turn of the loop as a function on the list of services; runs with arbitrary times up to the computed wait. The work takes no time in the model. Period by induction over the turns; the full minute from the calendar of C45.
* **C131 The status shown for a finished download tells what happened to it.** The chain of conditions as it stands over enumerations, sizes from the model of the counters (C23, C24), health possibly undefined. The result is stated with predicates on the members (no error, complete, unchecked, lost) and proved by going through the cases; the feeds' view by induction over queue and history.
* **C132 The command line does what the usage says.** The words as a list, getopt as the documented function which counts the words of switches and leaves the others for the end of its own copy; the readers of the words behind a switch as functions on the rest. The usage is written down as tables and proved entry by entry for every spelling; lists of ids are rendered from entries and read back by induction.
* **C133 A repair recreates exactly the missing data.** The tables of logarithms as the loop which fills them; the arithmetic of 16-bit words on them, proved to be a field (instance of Mathlib's Field; the order of the generator is checked by the kernel along 65535 steps) and to agree with a separate bitwise product of polynomials. SetInput, Compute, the elimination (without exchange of rows) and Process with its split tables as in the code. Specification: recovery blocks as sums of products with powers of constants. The elimination keeps the equations true; with consecutive exponents every leading minor is a Vandermonde determinant, so no pivot is zero.
* **C134 A repair puts every file in place or destroys nothing.** The disk as names with contents, the objects of the repair as numbers with names; the loops of RenameTargetFiles, CreateTargetFiles, VerifyTargetFiles, DeleteIncompleteTargetFiles and DeleteLeftovers with every rename, creation and deletion able to fail. Invariants through each loop: objects stand for different existing files, contents of the objects there at the start never change, a name without target file is free. The state after the verification is a hypothesis (`Verified`); what is computed is C133.
* **C135 A par check ends with the right result.** The counting of libpar2 over the list of files (undefined behaviour of non-recoverable files as its own outcome), the flags set by the signals, and RunParCheck as a chain of steps with an oracle for each result and each question whether it was stopped. The verdict is specified over the files themselves by induction; the run by its conditions.
* **C136 Waiting for more par2 files neither loses files nor waits in vain.** The thread of the check as a state machine with one state per indivisible action (a lock, a question for IsStopped), RequestMorePars as modelled in Verif.Repair; the other threads as events in any order. An invariant over all sequences of events gives that nothing is lost and what giving up means; a potential function limits the steps of the thread; the lost wake-up is a concrete schedule with all continuations.
* **C137 A repair by several threads computes the same data as by one.** The thread of the check and the threads of the repair as state machines with one step per memory access which others can see (each field of a job, the flag, begin and end of rs.Process, begin and end of reading a block); all interleavings and a cancel at any moment. rs.Process reads the old content at its begin and writes at its end, so lost updates would be seen. An invariant gives the result, the separation of the threads and that nobody works on return; a rank of the position of the main thread gives that it can always end. Assumed: the threads see memory in one order, although m_working is only a volatile bool.
* **C138 Which duplicates are searched for missing blocks.** Directories as lists of sizes, the output of unrar as a list of kinds of lines up to the moment it was ended; the choice of sources as filters over the history, characterised by a membership statement. The main file: the largest without archive and with a fully read archive; the two cases in which it is not are refuted for all sizes. The condition of the waiting loop is modelled alone and refuted for all clocks. Names of fragments at the level of bytes.
* **C139 Deleting a download from the queue.** One download with its files, its directory and its flags; an event is what happens under one hold of the lock of the queue (a command, the start or the end of the download of an article, the end of the writing of a file, the end of post-processing). An invariant (all files are to be deleted, each has a running download) is kept by every event until the download leaves the queue; a second one carries the command and the directory to the end. Orders in which the command isn't obeyed are shown as refutations.
* **C140 Creating directories.** `stat` and `mkdir` of POSIX over the file system of C124, with ENOENT, ENOTDIR and ELOOP apart; the recursion over the text of the path. Induction on the length of the text with the directories created so far; the specification is a relation between a path and the place to which it leads.
* **C141 Log files per day.** Splitting of the configured name, the mask, the numbers at the positions recorded by the mask (C57), the calendar (C45) and the division by the length of a day with 32-bit arithmetic. Which names are deleted is proved against a specification of the names; the file for each message by an invariant over the sequence of messages, with two readings of the clock for each.
* **C142 Conditions of feed rules.** Compilation of a term into field, command and parameter, the parsing of the parameters and the comparison with the data of an item. Numbers of digits whose product with the unit is at most 2^53 are exact; other numbers, fractions and regular expressions are parameters of the model. For each kind of condition its text is shown to compile, and to hold exactly for the items the specification describes.
* **C143 Reading of feed rules.** The splitting into rules, commands, options and terms. The text of a rule is built from a list of settings with spellings and blanks, and reading it is shown to give exactly these settings, the command and the terms. References in the values are expanded in a model of their own, with the season, the episode and the texts of the wildcards given; proved by induction over a pattern of texts and references.
* **C144 Password of an nzb-file.** The first 4 KB of the file as a buffer with its zeros, the two searches and the decoder of XML texts on the buffer, so that what it reads behind the end of the password is part of the model. Proved by induction over the escaped password.
* **C145 Items of a feed.** The handlers of the XML-parser as state machine on events, with null pointers and reads behind the end of texts as an outcome of their own. The specification renders lists of elements to events and says for each value of an item which element decides; induction over the elements and the items. The XML-parser itself and the reading of dates (C70) are parameters.
* **C146 Season and episode in titles of feeds.** The regular expression as a function of the text (first position, longest match), the formatting as in the code. The specification composes titles from text, a notation and text; the proofs pass text without digits and compare runs of digits. The library function regexec itself is trusted to do what its standard says.
* **C147 The article cache is written to disk.** The writing thread as passes of its loop, between which downloads begin, end and complete in any order; the disk is an oracle for each article. Articles on disk and in the cache are a permutation of the completed ones (induction over histories); the number of files with cached articles is the measure for the end. A flush is one step (the locks of the code), and the completion of files, which takes articles from the cache too, is in Assemble (C32).
* **C148 The par-check is told the truth about downloaded files.** The search in the list of completed files and the table of answers; the saved state of a file is an oracle. What is known of a file is a relation which is separate from the function; the theorem is by the position of the first file with this name. The use of the answer is in ParQuick.

## Violations found (proved as theorems about the model)

* C05 `accepted_but_incomplete`: two `=ypart` sections in one network buffer: `outlen = DecodeYenc(...)`
  overwrites the first section, size and CRC count both; the article is accepted with bytes missing.
* C48 `article_decoder_depends_on_cutting`: `strstr(buffer, " part=")` is not limited to the line, so a single
  part article whose data contains ` part=` is rejected or accepted depending on how the network cut it.
* C06 `reused_decoder_differs`: `Clear()` does not reset the detected format.
* C07 `raw_eof_depends_on_cutting`, `raw_eof_hidden_by_nul`: marker in three pieces or behind a NUL is missed.
* C49 `uu_article_not_decoded`: decoded uuencoded data stays in the line buffer; the undecoded network buffer
  is written instead.
* C12 `level_counter_wrong`: `InitConnections` adds connections in use to the counter of free connections; with
  every reconfiguration during downloads the counter grows too large (never too small: `request_served`).
* C51 `retries_not_respected`: `remainedRetries` is not reset when the loop leaves a server because it cannot
  connect; the next server gets fewer attempts than `ArticleRetries`.
* C14 `first_save_not_atomic`: without an older file a partly written "queue.new" is taken for the saved queue at
  the next start. `discarded_file_comes_back`: `Discard` deletes only the final name; a left-over ".new" of an
  interrupted save comes back at the next start.
* C14/C15 `crash_can_lose_the_queue`: `DownloadQueueExists` does not look for "queue.new"; a crash between the
  deletion of "queue" and the renaming makes the next start (without a history file) discard everything.
* C15 `moved_item_lost`: the queue file is replaced before the history file; a crash between them loses the item.
  `stale_progress_breaks_loading`: a crash before the progress file is deleted makes loading fail and drops the
  history from memory.
* C16 `dupe_mode_lost`: `LoadNzbInfo` stores the loaded hint with `SetDupeMode((EDupeMode)dupeHint)`: the dupe
  mode of an item is replaced by its hint at every restart and the hint is lost.
* C16 `interrupted_move_is_not_resumed`: the post-processing stage is saved as stage + 1 but loaded without
  subtracting it; an item being moved is taken for finished after a restart, one whose script runs is restarted.
* C16 `long_text_overflows`: `StateDiskFile::PrintLine` formats into a 1024 byte buffer and appends the newline at the
  untruncated length; a URL or parameter of 1024 and more characters writes outside of the buffer.
* C17 `large_offset_lost`: `SaveFileState` casts the segment offset to 32 bits; articles at 4 GiB and beyond get a wrong
  offset after a restart. `too_many_articles_throw`: a progress file with more entries than articles throws
  `std::out_of_range` from `at(i)`.
* C18 `long_host_loses_statistics`: `LoadServerInfo` reads the host into 200 bytes and the user into 100 bytes.
  `incomplete_definition_breaks_index`: `InitServers` skips an incomplete definition but counts it, while `StatMeter` sizes its
  vector by the number of servers: `m_serverVolumes[serverId]` is out of bounds for the last server.
* C52 `interrupted_progress_breaks_loading`: the progress file is deleted by every save of the queue, so the next save of progress has
  no older file. A crash during it leaves a truncated `progress.new`, which the next start reads: loading fails and the history
  is not loaded.
* C27 `days_end_in_2033`: `DAYS_IN_TWENTY_YEARS` days after 2012 the daily volumes are no longer recorded. `early_report_shifts_days`: a
  report from before the first recorded day moves `m_firstDay` but not the data, so all volumes are shown for wrong days.
  `after_2038_out_of_bounds`: `(int)locCurTime % 60` is negative after 19 January 2038, the charts are accessed out of bounds.
* C28 `stale_minute`, `skipped_slot_is_stale`: the number of minute and hour slots to clear is the elapsed time divided by the
  unit, rounded down; the number of unit boundaries passed can be one more. That slot shows data from an hour (a day) before.
* C29 `negative_speed`: the displayed speed is negative after the clock was set back.
* C30 `clock_back_ends_program`: `CalcQuotaUsage` calls `at()` with a negative index if the clock is before the first recorded day.
  `quota_ends_in_2033`: days which are not recorded are not counted.
* C45 `year_0_wrong`: years before 1 (C division rounds towards zero). Without practical effect.
* C19 `winter_time_repeats_task`: when the local clock goes back one hour, a task due in the repeated hour is executed twice for
  the same local time, unless both ticks come in the same second (the member `m_lastExecuted` compares times of ticks, not due times).
* C20 `reorder_twice_undefined`: the command to reorder files with an id which occurs twice inserts at an iterator after the end of the list.
  `sorter_not_weak_order`: with a selection the comparison given to `std::stable_sort` is no strict weak order (unselected entries are
  equivalent to all). Every merge sort gives the wanted result nevertheless (`sort_groups`), since the selected entries are adjacent.
* C21 `split_paused_count_wrong`: QueueCoordinator.cpp:1326 sets the new entry's number of paused files from the old entry's
  (`srcNzbInfo->GetPausedFileCount() + 1` instead of `nzbInfo->...`). `split_stops_download`: the new entry can be taken for paused while one of
  its files is not, so it is never downloaded. `split_restart_changes_failed`: failed sizes (articles missing in the nzb-file) are not moved in
  `m_failedSize`, so the failed sizes and the health of both entries change at the next start. `split_extra_priority_wrong`: the number of
  extra priority files stays with the old entry. `split_two_entries_undefined`: files of two entries in one command put a null pointer
  into the list. `split_drops_completed`: when the last files of an entry are split out, it disappears with its completed files.
* C22 `merge_loses_extra_priority`, `merge_negative_extra`: the number of extra priority files of the second entry is not added.
  `merge_reports_contrary`: QueueEditor.cpp:1013-1016 sets `ok = false` when the merge succeeded. `merge_refused_reports_success`.
  `merge_twice_undefined`: an id given twice is used after it was freed. `merge_completed_elsewhere`: completed files of the second entry
  stay in a directory of their own.
* C53 `health_check_deletes_repairable`: CalcCriticalHealth counts failed par2-data as data to be repaired; a download which can be repaired is
  deleted by the health check (881 < 888 per mille in the example).
* C25 `extra_priority_hides_priority`: GetNextArticle ranks entries by "has a file with extra priority" but files by their own flag; an entry
  whose extra priority file is in flight hides an entry of higher priority or not, depending on the order of the queue.
  `rename_takes_paused_file`: with DirectRename the first article of a paused, deleted or not yet propagated file is downloaded.
  `wrong_count_blocks`: a wrong number of paused files (see C21) makes an entry with articles to be downloaded invisible.
* C26 `missing_source_blocks`: if the nzb-file of the best backup is missing (HistoryCoordinator.cpp:462-467) the next best backup is not tried.
* C55 `copy_missed_on_redownload`: the search in history stops at a duplicate marked as good, so that the same content further down is not seen;
  for a url which is downloaded again only the same content counts and it is downloaded. `displaced_for_nothing`: SameNameOrKey is not transitive
  (`duplicates_not_transitive`); a queued entry can be moved to history in favour of a new one which is then left out itself.
* C33/C31 `mislabelled_article`, `content_of_too_large`: a multi-part yEnc article which delivers more bytes than its =ypart line announces is
  accepted (Decoder.cpp:302 does not compare the two; the comment in ArticleWriter.cpp:156-158 assumes it does). The bytes that do not fit are
  dropped; with the article cache the segment is enlarged to the received size (ArticleWriter.cpp:204-207), so memory that was never written ends
  up in the downloaded file, and the cache may exceed its limit by any amount (`limit_exceeded`).
* C31 `flag_file_wrong`: articles announced with size 0 make the flag file of the cache wrong in both directions (Alloc(0) writes the flag without
  accounting anything, Free ignores segments of size 0).
* C32 `uu_cached_overwritten`: uuencoded parts have offset 0; those in the cache are all written at offset 0 of the file (ArticleWriter.cpp:431),
  one on top of the other. `flush_loses_articles`: for a file put back from history (forced direct write) FlushCache decides by the option
  DirectWrite only (ArticleWriter.cpp:575) and puts cached articles into files which CompleteFileParts does not read. `huge_hole_undefined`: a hole
  of 2 to 4 GB (one article with a large begin=) makes `(int)` at line 423 negative, fwrite gets a length near 2^64. `unordered_parts_misplaced`:
  article files are appended at the current position, not at their offset. `direct_holes_dirty`: in direct write mode holes keep the bytes of
  failed attempts, or of an old file of the same size.
* C57 `references_wrong`: with `*` and `?` (or `#`) in one mask the positions recorded by WildMask::Match are wrong after backtracking, lengths may be
  negative (`*aa?ac` on `aaaaac`); the length goes to `CString(str, len)` in ExpandRefValues: write before the allocated block.
  `empty_reference_wrong`: an empty match has length 0, which CString takes for "until the end": the reference is the rest of the title.
* C35 `negated_bracket_ignored`: the sign in `-( ... )` is ignored. `mixed_group_inconsistent`: `a | b c` has another value than `a | b ( c )`.
* Term::Compile reads `token[1]` of an empty token (a rule ending in `%`); a text condition on an attribute the item does not have is compared with "0";
  `#` in a mask also matches the character `#` (not proved, noted while reading).
* C59 `huge_history_forgets`: `GetFeedHistory() * 60*60*24` is computed in `int`; from 24856 days on it overflows, and e.g. FeedHistory=30000 forgets
  every item within a minute and downloads it again at each fetch. `broken_feed_forgets`: a feed whose answer cannot be parsed counts as updated,
  so after FeedHistory days of broken answers all items are forgotten and downloaded again. `zero_history_forgets`: FeedHistory=0 and a tick of the clock.
* C61 `backlog_after_broken_fetch`: if the first answer cannot be parsed the second fetch is no longer the first one, and the whole backlog is added.
  `unfetched_feed_stops_cleanup`: one feed which was never fetched stops the clean-up of the history of all feeds.
* C62 `long_url_forgotten`: urls of 1023 bytes lose their last byte in the state file; `longer_url_undefined`: longer ones (from the provider of the feed)
  make PrintLine write beyond its buffer on the stack.
* C63 `crash_loses_item`: the state may be saved between ProcessFeed and AddUrlToQueue; after a crash the item is never downloaded.
* C42/C43 `byte_80_raw`, `json_byte_80_raw`: the byte 0x80 is copied into answers of the API, which then are no valid UTF-8 and cannot be parsed.
  `line_break_not_given_back`: the decoder of the program does not know the references its encoder writes.
* C43 `emoji_lost`: characters outside of the basic plane become dots; `accent_changed`, `control_digit_changed`: texts outside of ASCII, and control
  characters followed by a hexadecimal digit, do not come back from the decoder of the program.
* C65 `ampersand_at_end_overruns`, `number_at_end_overruns`, `att_overruns`: texts which end with an ampersand, with a numeric reference or with
  an ampersand and letters make the decoder run over the end of the text (any feed provider or nzb-file can do this).
  `digits_after_reference_lost`: digits which follow a numeric reference are lost.
* C66 `adjacent_escapes_cut`, `two_backslashes_extend`: a JSON string with an escape directly followed by an escaped quote is cut there;
  with two escaped backslashes at its end it swallows what follows.
* C67 `backslash_at_end_overruns`: a JSON text ending in an incomplete escape makes the decoder run over its end.
* C68 `percent_at_end_overruns`: an incomplete percent-code at the end makes the decoder run over the end; reachable before login by the user name
  in the url (WebServer.cpp:229).
* C69 `quoted_pair_wrong`: a quoted character in a file name is doubled, an escaped quote ends the name.
* C70 `zone_half_hour_wrong`: the offset of zones less than an hour ahead of universal time is applied in the wrong direction.
* C71 `refused_content_executed`: the content of a refused request (401) stays in the stream of a kept connection and is executed as the next request, with the headers of whoever uses the connection next (request smuggling behind a reverse proxy; no credentials needed).
* C71 `nzbget_answered_twice`, `empty_content_not_answered`: the redirection of `/nzbget` is followed by a second answer; a POST without content gets no answer.
* C71 `empty_url_undefined`, `url_percent_undefined`, `huge_content_undefined`: reads behind the url for an empty url or an incomplete percent-code, overflow of the content length; all without credentials.
* The tokens of logins by form are made with `rand()` seeded with the start time (nzbget.cpp:152); C37 takes them as given and different, not as unguessable.
* C56 `keep_history_overflow`: KeepHistory is multiplied as `int`; with 24856 to 49710 days everything in the history is removed or hidden at once.
* C72 `multicall_shows_secrets`: `system.multicall` does not pass the access of the user to the commands (an uninitialised member); a restricted user can read all passwords with it.
* C73 `jsonp_link_executes`, `jsonp_link_executes_all`: links of JSON-P (`/jsonprpc/shutdown`) execute every command, so any web page can make a logged-in browser do it.
* C40 `unique_not_directory`: MakeUniqueFilename tests for regular files only, so it returns the name of a directory which exists.
* C75 `category_escapes`: with AppendCategoryDir a category `../x` (or `..\\x`) puts a download out of DestDir; users with the right to add can choose it.
* C75 `empty_name_shares`: a name of dots and blanks becomes empty; the directory of the download is DestDir itself.
* In ArticleWriter.cpp MoveCompletedFiles (700-745) the loop which should wait for pending writes ends at once in any case (`if (!pendingWrites) break;` while the flag is false at the beginning); not modelled.
* The numbers of blocks in RequestMorePars are added as `int`; names like `a.vol0+2147483647.par2` of two files overflow it. The model of C76 adds without limit.
* C47: nzb-files with nested elements crash the program: a `<file>` within a `<file>` (null pointer at the second `</file>`, `nested_file_crashes`), a `<segment>` within a `<segment>` (the outer article keeps a null id, whose length is taken in CalcHashes, `nested_segment_crashes`), a `<file>` within a `<segment>` (write to a deleted article, `nested_file_in_segment_crashes`). These files are well-formed XML.
* C47: a segment with a size of 2 GB or more, or without the attribute `bytes`, gets a negative size; a segment without text gets the id `<(null)>` (`odd_segments`). A part number near 2^31 makes AddArticle allocate a vector of that many pointers (16 GB); memory is not modelled.
* C77: for an empty subject, for `)` and for `/`, digits, `)` ParseSubject reads the byte before its buffer (`short_subject_read_outside`); for subjects of 1023 or more bytes without a quoted name it reads the byte after it (`long_subject_read_outside`).
* C78: if two files of an nzb-file have the same name, the content hash depends on their order (`same_name_order_matters`).
* CalcHashes: the comment says that the filtered hash is not used if it is based on less than half of the files; the program compares the number of articles with half of the number of files.
* C79: with ParCheck=manual (set while the download was in the post-queue) a failing unpack after a repair is repeated without end (`manual_parcheck_loops`), because the request for a full par-check is ignored but not reset.
* C81: a par-check requested by a script (exit code 92) is never made: the stage is set to "finished" by the scripts and CheckRequestPar does not set it back, therefore CleanupJobs completes the job (`script_parcheck_lost`).
* C82: with ParRename=no, if archives are in the list of completed files but not on disk, the download ends with "unpack failed" though no unpacker was started and the par-check has found no damage (`unpack_failure_without_attempt`).
* C83: a post-job which is deleted after its stage (or direct unpack) has ended and before the next look of the post-processor at the queue stays in the list of active jobs: PostQueueDelete compares `postJob->GetPostInfo() == postInfo` after JobCompleted has deleted the PostInfo, so nothing is erased; the next CheckPostQueue uses a null PostInfo or a deleted NzbInfo (`delete_between_stages_breaks`, reached by `delete_between_stages_reachable`).
* C87: between devices FileSystem::CopyFile ignores errors of reading and writing and returns true, then the source is deleted: with a full disk the file is cut off and the move is reported as a success (`copy_error_loses`). A file with a leading dot which can not be moved is ignored and deleted together with the intermediate directory (`hidden_failure_loses`). A directory is never moved to another device; an empty file of its name is left at the destination (`directory_other_device`).
* C88: an extracted archive whose name has a reserved character is deleted, because the name is noted before it is made valid (`extracted_archive_lost`); two extracted files whose names become equal overwrite each other (`extracted_names_collide`); an existing file is deleted before the extracted one is moved, so it is lost if the move fails (`replaced_file_lost`). The errors of C87 for copies and for files with a leading dot apply too. UnpackController::m_interDir is never set, the test `m_interDir ||` has no effect.
* C90: fragments of different sets are counted together. With fragments 1 and 3 of one set and fragment 2 of another one no fragment seems to be missing; the loop ends at the missing fragment with success, the joined file has the first fragment only and this fragment is deleted (`two_sets_joined`). Two complete sets in one directory are never joined (`two_complete_sets_refused`). Errors of reading and writing are ignored (`join_write_error`).
* C91: a block of version 3 which claims to be shorter than 7 bytes, or one of version 5 with a size near 2^64, makes the program seek back to the same block: an endless loop in post-processing (`endless_version_3`, `endless_version_5`; with file blocks the list of files grows without end too). A number with more than ten bytes shifts by 64 bits or more, which is undefined (`long_number_undefined`). If the header and the data of a file together reach a multiple of 4 GiB within 64 KiB, a 32-bit sum overflows and the next block is searched in the middle of the file (`large_block_misread`). Volumes without an end-of-archive block are refused (`volume3_without_end_refused`). The number of a volume of version 3 is read from four bytes instead of two; `hasNext` is set only if the number is stored.
* C92: the volumes found in one directory are not forgotten when the next directory is checked, and their names are not updated after renaming. So in every further directory the program tries to rename archives again which were renamed already, with error messages; if another archive has got the old names meanwhile, its volumes are moved to the subdirectory with names of the wrong archive and in the wrong order (`second_directory_takes_files`). A rar archive of version 5 in a single volume never has a good name and becomes name.part0001.rar (`single_archive_renamed`). Names of the old style repeat from the volume 14201 on (`old_names_repeat`), then volumes would overwrite each other. The name of the file within the archive is not made valid before it is used as a file name.
* C93: the time of the last change of an incoming file is never updated: CanProcessFile sets the size before it compares it. A file which is still being written is processed as soon as two scans in a row see the same size, although NzbDirFileAge seconds have not passed (`changed_is_processed`).
* C94: the nzb-file is renamed to .queued before the queue is saved; a crash between loses it: no later scan adds it and the queue does not have it (`crash_before_save_loses`). A file which can not be renamed is put to the history as failed at every scan again (`unrenamable_added_again`).
* C95: a periodic scan between the moving of the file and the request of its scan clears the list of requests: the nzb-file is added without the category, priority, duplicate key and parameters of the request, and the request reports that it was skipped (`scan_between_loses_parameters`). Two requests with the same name at the same time: the search for a free name is not under the mutex, the second file overwrites the first one, which is lost (`equal_names_lose_a_file`). AddNzbFileToQueue uses the URL item without a check that it is still in the queue.
* C96: RenameBadParFiles adds `.bad` to the name without a check: an existing file of this name is overwritten (`bad_overwrites`). A file is not renamed if its name is still in use when it is reached, although the other file is renamed later: the result depends on the order of the directory, and files whose names are swapped are never corrected (`order_matters`). A directory named `x.par2` is taken for a damaged par2-file and renamed (`directory_renamed`). NeedRenameParFiles uses a length which is not set if a name is none of a par2-file, CheckParFile looks at a header which is not set for files shorter than 64 bytes. The marks for damaged par2-files and the count of renamings are carried over from one directory to the next.
* C97: UrlCompleted resets the status of a URL to retry under the lock but its mark of an active download outside of it. If the URL is started in between, it counts as inactive while it is fetched: deleting it destroys the object which the thread uses (`freed_while_fetching`). A deletion between the end of the download and the scan is reported as successful but the nzb-file is added (`deleted_is_added`). A deletion while a failure is reported remains in the history item: when the URL is downloaded again on request, it is deleted after its download (`again_is_deleted`). The final deletion of a waiting URL moves it to the history (`final_delete_goes_to_history`). If the program ends after a URL failed and before it is moved to the history, it remains in the queue and is never fetched nor moved (`restart_stuck`). If it ends while an active URL is deleted, the URL is fetched again (`restart_forgets_deletion`).
* C98: HistoryRetry returns every partly downloaded file when failed articles are to be retried, also one whose only missing articles are missing in the nzb-file: no article of it can be started, so it never ends and the download stays in the queue (`retry_stuck`). The last partly downloaded file counts as parked even if all its articles were tried: returning such a download leaves an entry without files in the queue, which nothing completes (`return_nothing`); a partly downloaded file which is not the last one is not counted, so that its untried articles cannot be requested (`return_refused`). A file which is parked while partly downloaded is counted in the totals and downloaded completely after its return, so that it is counted twice (`parked_twice`). Before a parked file is returned, whatever lies under its name in the destination directory is removed, also another file of that name which was downloaded completely (`return_removes_other`). If the program ends between the change of the stored states and the saving of the queue, failed articles stay counted as failed forever (`crash_counts_failed`).
* C99: References are expanded until none is left, so an option which is set twice to a reference to itself (or two options which name each other) lets the program hang at start (`self_reference_never_ends`). A configuration file of exactly one byte lets it hang too, since fgets is called with a size of 1 (`one_byte_never_ends`). A file of one line without a line break loses the last character of the value, which is then reported as an invalid line (`one_line_cut`). After a reference to an option without a value nothing more of that value is expanded, not even known options (`setOption_unknown`). A reference changes the spelling of the option which it names in the list of options (`reference_renames`). The old name of the scripts of a category is recognised in any spelling but replaced only in one, so `Category1.postscript` is reported as invalid (`old_category_spelling`).
* C100: ParCheck passes a count of 6 for a list of 4 values and FileNaming a count of 4 for a list of 3: every value which is not in the list makes the program compare with what lies behind the array (`parCheck_overrun`, `fileNaming_overrun`). An option of a server, feed or category which has no default of the program is its own default, so that an invalid value of a yes/no option counts as yes: "Server1.Optional=never" makes the server optional (`invalid_bool_of_section`). A number from 2^31 on is taken modulo 2^32 without an error (`int_wraps`), an empty one is 0 (`int_empty`). The product of the speed limit with 1024 and that of the time correction with 60 overflow for large values (`rate_spec`, `timeCorrection_spec`).
* C101: what follows a blank or a star inside of the hours or minutes is ignored, so "1 2:30" is 1:30 (`time_garbage`), and missing minutes count as 0: "5:" is 5:00 (`time_missing_minutes`). Weekdays of "-" or "," alone count as every day. If a time of a list is invalid, an error is reported but the times before it have their tasks already (`earlier_times_kept`). "*" (start of the program) as the first time passes an uninitialised number of minutes on (`time_startup` with `none`). A command which the program does not know is reported, but the task is added nevertheless and pauses the download (`unknown_command_pauses`). An invalid speed in the option Param makes the program format a null pointer with %s (`bad_rate_null`).
* C102: an argument is cut after 1023 bytes without a message (`long_argument_cut`) and an empty argument in apostrophes disappears, so that the following ones move (`empty_argument_lost`).
* C103: a server section in which only IpVersion (or Notes) is set does not count as one, so that it and all servers after it are ignored without a message (`ipVersion_is_gap`). Numbers of servers and feeds are not checked: Connections=eight is 0 connections without a message (`bad_number_unnoticed`). The root directory as directory of a category becomes a directory below DestDir (`checkDir_root`), and a relative directory whose second character is a colon is taken as an absolute one, on POSIX too (`checkDir_colon`); the joined path is cut after 1023 bytes.
* C104: if a scan-script sets the category, the option Unpack of that category has no effect, because the parameter was set from the previous category before the script ran and is not reset (`unpack_not_updated`); the parameters which the user gave for scripts are dropped instead (`category_of_scan_script`). Scan-scripts which only a category enables are never run, because only the global list decides whether there are scan-scripts (`category_scan_scripts_lost`).
* C105: user and password of a URL are parsed and never sent (`credentials_not_sent`); with a path of 1019 bytes or more the request line has no end, and the next line becomes a part of it (`long_resource_not_ended`); a redirection to a path with "://" in its query is taken for a full address and refused (`redirect_with_address_in_query`); a redirection to `//host/path` stays at the same server; an empty file name in a reply makes the code read the byte before the buffer (`empty_filename_reads_before`); `filename*=` is taken over with its encoding (`extended_filename_wrong`).
* C106: a reply with the code of a redirection but without an address is taken for the document (`redirection_page_taken`); without an announced length a part of a document is taken for the whole when the connection is closed, compressed or not (`unannounced_part_taken`, `truncated_gzip_taken`); a document of length 0 never succeeds (`empty_document_fails`); if the request cannot be sent, an uninitialised buffer is read (`unsent_request_undefined`), because CheckResponse is called before the test for null, which makes the branch "connection closed" dead; a download which is complete when downloads are paused is fetched again though its file is there (`complete_but_repeated`).
* C107: if the configuration file ends with a comment without the end of the line, the first new option is written into the comment and lost (`swallowed`); a line break in a value makes another option (`injected`); reading an empty configuration file for the settings page never ends, because fgets is called with the size 1 (`empty_never_read`); the file is overwritten in place, so an interruption can leave values which are neither the old nor the new ones (`interrupted`); an indented comment with `=` counts as an unknown option and is removed.
* C108: leaving out a file in server mode reads its number after the file was destroyed (QueueCoordinator.cpp:477-480), and the number of a refused collection which is not kept in the history is read after the collection was destroyed (420-421, PrePostProcessor.cpp:441) (`freed_memory`).
* C109: if the new directory has a file of the same name the moved file gets another name, but the entry still lists the old name, which is a different file now (`record_wrong`); files which could not be moved do not make the request fail (`failed_is_success`); if the new directory cannot be created the entry points to it all the same (`orphaned`); the check for pending writes never finds any, because its loop ends before the first file (`pending_ignored`).
* C110: the parameters of `append` are not decoded (`params_not_decoded`); if they are left out in JSON the member `id` behind `params` becomes a parameter of the download, or the call is refused if it is a number (`id_becomes_parameter`, `id_refuses`); a blank before a closing brace ends the reading, so that `saveconfig` keeps only the options before it (`blank_truncates`); a value `"params"` before the member hides it (`id_params_hides`); texts without a type are refused in XML (`untyped_refused`); in links every text is taken for a number (`link_args_lost`); the speed limit wraps around (`rate_wraps`); a request which ends with a value makes the program read behind it (`read_beyond`).
* C111: pausing the par-files of files which are named is always reported as failed (`pars_reported_failed`), because the list whose size is the result is emptied; a parameter without equals sign and an unknown duplicate mode are reported as success (`wrong_argument_accepted`); an id which is given twice makes even the only recovery volume paused (`extra_pars_twice`) and, in a final deletion, makes the program use an entry which was destroyed (`deleted_twice`); a name which is given twice makes the whole command fail (`names_edited`); names of files are compared after 1023 characters, so longer ones are not found; regular expressions which match nothing are reported as success (`regex_edited`).
* C112: the comparison used for sorting files is not an order if a name comes between those of two parts of an archive, e.g. `x.rar`, `x.r10`, `x.r100` (`rar_circle`, `three_digits_undefined`), or if a par-file of another collection comes between two volumes of which the first is the larger one (`par_circle`); std::sort is undefined then.
* C113: a message whose target is `log` only, written after its target option was read and before the log is initialised (Options.cpp:797-801, nzbget.cpp:427), appears neither in memory nor in the file (`lost_while_reading`): e.g. with ErrorTarget=log the errors of the configuration file are lost. A negative number of lines in a binary log request gives a negative size of the buffer (`binary_negative`).
* C114: a message without visible text hides all later messages of the entry (`blank_hides`): trailing tabs are trimmed and the reader gives up at a line with fewer than three tabs. Times after 2038 are read back as negative numbers.
* C115: the priorities of events are ignored: CheckQueue resets `m_curItem` before its loop (QueueScript.cpp:415), so the comparison of priorities (443-444) never takes place and the item which came LAST is started (`last_comes_first`); an item may wait for ever (`may_starve`). A waiting NZB_DELETED is dropped if the entry is marked as bad or is not kept in the history (`deletion_not_told`). EventInterval does not apply to files complete in the same second (`interval_same_second`).
* C116: the CRC of a range of blocks is computed wrongly, so that an intact file falls back to the slow verification, if the range begins inside of an article and ends in the next one (`two_articles`: break at ParChecker.cpp:1537-1540), lies inside of one article (`one_article`, 1559), if an article ends one byte before the end of the range (`last_byte_left_out`, 1550) or if 65536*n+1 bytes are to be read (`one_byte_not_read`, 1588). A file with two equal blocks is never verified quickly (`equal_blocks`). A file which lacks zeros at its end passes as intact (`short_file_passes`). The last byte of the file may be missing in a block which is taken as valid (1429; its CRC then decides).
* C117: after a connection was lost or cancelled, `NntpConnection::Disconnect` does not forget the group (NntpConnection.cpp:228-232 only if connected), so on the next connection JoinGroup answers `211` without telling the server (`stale_group`); a server which needs groups then says 412, which counts as `article not found` (`stale_not_found`). A file without groups on a server with JoinGroup is a connection error whatever the server says; the server is blocked and the file tried again for ever (`no_groups`). A message-id with line breaks (from an nzb-file) sends arbitrary commands to the server (`injected`); one of 1017 or more bytes sends no line end at all (`no_line`). If the authorisation fails, `Connect` leaves the connection open and would succeed the next time (`second_connect`; the callers disconnect).
* C118: an empty file given to the client (`-A`) makes the server read behind its buffer of no bytes (BinRpc.cpp:421, `empty_file`); a file which begins like an address is taken for one and read without a terminator (`file_like_url`). An edit request with more names than data, or with a negative length of the text, reads outside of the buffer (`names_overrun`, `negative_text`: the check of the sum, BinRpc.cpp:814, looks neither at signs nor at names); negative lengths of data crash downloads and log lines (`negative_length`, `negative_line`). All these need the password. With a ControlPassword of 32 or more characters the client cuts it, and the server refuses all requests of its own client (`long_password`).
* C119: the client shows the status of scripts in the history with texts shifted by one (RemoteClient.cpp:1086 against DownloadInfo.h:323-328): successful scripts as `Script failed`, failed ones as `Script status unknown` (`script_shown`). `nzbget -G -5` (a negative number of lines, CommandLineParser.cpp:370) is answered with a negative count and length without data; the client then reads from nowhere (`negative_lines`).
* C120: a command of a script which does not fit into 1023 bytes together with the name of the script is cut off without a message (Script.cpp:861-878): a long FINALDIR or parameter takes effect with a wrong value (`long_value_cut`). A line of more than 10239 bytes is taken for several lines (`overlong_line`).
* C120: the warning `Marking … as bad` is passed to AddMessage like the output of the script, although it has no prefix (PostScript.cpp:258-260, 225): with a name of the download which contains a command at the position where output of the script begins, that command is executed (`name_is_executed`, e.g. script Notify.py and a download named `[NZB] DIRECTORY=…`); with `[NZB] MARK=BAD` in the name the program calls itself until the stack is exhausted (`name_never_ends`); with a long name of the script and a short name of the download it reads behind the text (`mark_reads_behind`).
* C120: with the option ShellOverride set, a script without a point in its path makes the program pass a null pointer to strcasecmp (Script.cpp:241-251), which ends it (`no_extension_crash`).
* C120: a script with a comma or semicolon in its name can be chosen but is never executed (`comma_never_run`).
* C121: an article which is decoded in one piece is never taken for one of a par2-file (DirectRenamer.cpp:545: the mark is looked for only after 64 bytes were added by a call before, `one_piece`). The data of an article is given on as it arrives in buffers of 4 KiB, so a small par2-file, typically the main one, loses its mark as par2-file and is downloaded even if it was paused (`small_par_lost`); it is not read for the renaming.
* C121: when an article is fetched again, the mark and the set of the first attempt are kept (Reset, 529-535, does not clear them; `retry_keeps`).
* C121: renaming of completed files overwrites: two files which have got the names of each other lose the second one (`swapped_lost`), and of two files with the same first 16 KiB only the second one is kept (`same_start_lost`), both without a message. ParRenamer (C96) does not have this.
* C121: the completion of the last par2-file which was wanted does not start the reading, because it is still in the list (QueueCoordinator.cpp:874-887; `last_par_not_read`): nothing is renamed until some other article or file is completed, and never if there is none.
* C121: a file which was just written but is still in the queue is renamed on the disk, its OutputFilename is not changed and it is kept as completed under the old name, which does not exist (DirectRenamer.cpp:389-398, QueueCoordinator.cpp:867-868; `written_stale`).
* C122: a volume which is completed between the check of the disk and the registration of the wait (DirectUnpack.cpp:436-443) is waited for in vain; when the download is complete unrar is killed and everything unpacked is deleted although nothing has failed (`missed_volume`, `unanswered`). Post-processing unpacks again.
* C122: an archive which is completed between the look at the list and the look at `m_nzbCompleted` (DirectUnpack.cpp:80-106) is not unpacked and success is shown (`missed_archive`); post-processing notices that its file was not read and unpacks everything again (`uses_iff`).
* C122: deadlock of the whole program: WaitNextVolume takes the mutex of the volumes and then the queue (DirectUnpack.cpp:442-448), FileDownloaded is called with the queue and takes the mutex. It needs a file reported after the completion of the download, for example a par2-file unpaused by the user, while unrar asks for a missing volume (`dead_reachable`, `dead_stays`).
* C122: a download deleted after an archive was taken and before unrar is started (`m_unpacking` is still false) leaves unrar running; if it asks for a volume the thread and unrar hang for ever (`deleted_hangs`, `orphan_stays`).
* C122: Stop is called with a null entry if the entry was deleted after its completion and a question of unrar was already read (DirectUnpack.cpp:448-450, 408-409; `no_entry_crash`). If unrar is killed while it waits, `m_waitingFile` stays set, and the report of this volume writes to the closed pipe (`closed_pipe_crash`).
* C122: the directory _unpack is not cleaned before the first archive, because its name is set after the cleaning (DirectUnpack.cpp:90-92), so files left by an interrupted job become part of the result (`leftovers_kept`). A job stopped between two archives leaves its files (`cancelled_left`).
* C122: a line of unrar which begins with a backspace repeats the message before (DirectUnpack.cpp:284-297; `backspace_repeats`).
* C123: messages of the program itself, with the name of the job in them, are searched for the errors of unpackers (Unpack.cpp:98, 226, 847-921). A job whose name ends with " - CRC failed" is never unpacked (`name_stops`, `crc_failed_name`), one whose name ends like the message of 7-Zip does not get passwords tried (`loud_name`).
* C123: after an automatic termination (a wrong password) a stop by the user is taken for the automatic one: the next password is tried and the job may end with success (Unpack.cpp:228-232; `cancel_forgotten`, `cancel_lost`).
* C123: exit code 11 of unrar makes the message about it terminate the process, which has already ended: a signal is sent to a stale process number (Unpack.cpp:307-315, 903-914; `exit11_kills`).
* C123: messages of 7-Zip of 19 to 44 bytes, "Everything is Ok" among them, are compared from up to 26 bytes before their begin (Unpack.cpp:897-898; `outside_iff`, `success_outside`). The result is right in a flat memory (`outside_harmless`).
* C123: a line of the password-file with more than 510 bytes is tried as several passwords (`long_line_split`). The password "-" is the same as none (`dash_is_none`). What follows a backspace on a line is not looked at (`after_backspace`).
* C124: a symbolic link to a directory is followed when a directory is deleted (FileSystem.cpp:549-574 uses stat, 639-641): everything in the directory it points to is deleted, although it is outside, and the link and the directory which was to be deleted stay (`follows_link`, `link_witness`, `outside_not_safe`). An archive can contain such a link; directories of failed unpacking and of deleted history entries are deleted this way (Unpack.cpp:740, DirectUnpack.cpp:518, HistoryCoordinator.cpp:350).
* C124: a directory with a path of 1022 or 1023 bytes with something in it is entered again and again until the stack overflows (FileSystem.cpp:637, the name is cut; `long_never_ends`).
* C125: without InterDir downloads of the same name and category share one directory (`same_name_same_dir`); deleting the history record of a duplicate, which was never downloaded, deletes the files of the good download (HistoryCoordinator.cpp:341-354; `duplicate_deletes_files`, `film_lost`). With InterDir directories are unique (`inter_dirs_differ`).
* C125: the new name of a history entry is not checked (HistoryCoordinator.cpp:760-780, unlike QueueCoordinator.cpp:1130). After renaming to "." (or "..", or any path) "download again" deletes everything in the directory to which it leads, without InterDir all downloads (`name_is_a_path`, `dot_deletes_all`, `dot_witness`).
* C125: a merged download cannot be downloaded again, because the joined name of its nzb-files is looked for (HistoryCoordinator.cpp:460; `merged_refused`), and success is reported.
* C125: the result for several entries is that of the last one (HistoryCoordinator.cpp:281-291): a failure before it is hidden, and if only the last one fails the changes are not saved (`result_last`, `change_not_saved`). A parameter without "=" is refused but reported as success (`bad_parameter`), so is deleting a hidden record (`delete_hidden_nothing`).
* C126: the cleanup of the state directory deletes every file whose name begins with a number, such as "2024-backup" (DiskState.cpp:1641-1645; `foreign_deleted`), and loading of the progress every one with another letter behind the number, such as "2024.backup" (1984-1988; `foreign_deleted_too`). In the directory of temporary files every name with ".tmp" or ".dec" in it goes, such as "trip.december.jpg", and "1.2.iso" (1556-1571; `temp_foreign_deleted`).
* C126: if the history cannot be read, its rest is lost and so are the infos and the progress of all files of the queue (DiskState.cpp:381-411; `damaged_history`); one state file of a file which cannot be read (they are written without a backup) ends the loading of all progress behind it (1974-1978; `cut_state`).
* C126: a queue file of a newer version is not loaded and overwritten at the next change (`newer_version`). An entry of the history of an unknown kind crashes the program (DiskState.cpp:1463; `unknown_kind_crashes`).
* C126: the file "files" is written at the end of the program only and never deleted (`DiscardQuickFileInfos` is not called). After a crash its old names replace those which were saved since then by renaming during the download (DiskState.cpp:1893-1940; `stale_files`).
* C126: a file whose infos cannot be read is taken out of the queue without failure (`unreadable_dropped`).
* C127: while required directories are missing, files with extra priority (recovery files which were requested before a restart) are downloaded nevertheless, and URLs and feeds are fetched (QueueCoordinator.cpp:217, UrlCoordinator.cpp:103; `not_waiting`).
* C127: a full disk stops neither forced downloads nor post-processing (`full_disk_limits`), and the pause it causes stays when there is space again (`full_disk_stays`).
* C127: a scheduled resume ends a pause which the schedule has set in the meantime, even in the same minute, because the tasks are executed before the resume is checked (Scheduler.cpp:90-91; `resume_beats_schedule`). The first check of the schedule undoes the pause of the command line and the one because of errors in the configuration (`schedule_undoes_start`). No pause survives a restart (`restart_forgets`).
* C127: in a task for servers a name such as "2nd" is taken for the number 2 if server 2 comes first (Scheduler.cpp:290-294; `number_before_name`).
* C127: a speed limit of 2097152 KB/s or more overflows (XmlRpc.cpp:1181, Scheduler.cpp:198; `rate_sets`); the binary protocol accepts a negative limit, which means none (`negative_rate`).
* C128: after the clock was set back the average speed is negative until the old time is reached, and only the bytes of the current second are limited (`clock_back`).
* C129: a change of the clock (also the sleep of the computer) costs two seconds of up time and download time: the second is added to the start instead of taken from it (StatMeter.cpp:209-213; `clock_change`). If a download begins between the change and the next check, the change is counted twice and the download time becomes too small by it, even negative (`change_counted_twice`).
* C131: a download which could not be moved to its destination is shown as FAILURE/MOVE, but counts as a success for its duplicates and turns into SUCCESS/HIDDEN when hidden (`move_failure_counts`; IsDupeSuccess does not look at the move, DownloadInfo.cpp:492-509). A download without par2-files which lost up to 15% of its data is shown as FAILURE/HEALTH (critical health 100%), but counts as a success (critical health 85% there), so no duplicate is fetched instead, and becomes SUCCESS/HIDDEN (`health_failure_counts`).
* C132: a switch behind the file spoils the command: getopt moves it to the front of a copy of the words, but the file is then looked up in the original (CommandLineParser.cpp:83-99, 815-852). `nzbget -A x.nzb -c /etc/nzbget.conf` sends nzbget.conf as nzb-file (`late_switch_sent`), `-E D 5 -o …` takes the ids from the option (`late_switch_ids`). `-E F DP <ids>` deletes the downloads with the ids of the files, `-E F SF` sorts them, `-E G S <name> <ids>` splits off the files with the ids of the downloads (`files_park_deletes_groups`, `groups_split_takes_files`; 516-523, 568-579). Ids above 32 bits are taken modulo 2^32 (`ids_wrap`). All files behind the first are silently ignored by -A (part of `append_command`).
* C133: the elimination never exchanges rows (reedsolomon.h GaussElim: a pivot of zero ends it with \"RS computation error\"), and the recovery blocks used are always the first ones. With gaps in the exponents a repair may therefore fail although \"Repair is possible\" was said and although other recovery blocks are at hand: `repair_singular` states when this happens for two missing blocks, `repair_can_fail` shows a case. With exponents which follow each other it never happens (`repair_consecutive`).
* C134: a success deletes every file in which a block was found and which is not a file of the set, wherever it lies. With ParScan=dupe files in the directories of other downloads of the history are searched, too (ParChecker.cpp:907-947): the repair of one download then deletes files of another, finished one (`source_consumed`), and a complete file found there is moved away from it (`complete_moved`).
* C134: a failed repair does not undo the renaming: the damaged file stays as `name.1` and there is no file `name` (`failed_leaves_renamed`); if the repaired file turns out to be wrong it stays under the right name (`failed_leaves_wrong`). With quick verification repaired files are not read again (ParChecker.cpp:1305-1311), so a wrong one is a success (`quick_success_wrong`).
* C134: a damaged file is renamed to the first free `name.N`. If that is the name of another, missing file of the set, the file is then overwritten when this one is created: the data is lost even though the repair fails (`clash_loses`). The positive theorems therefore exclude sets in which one name is another one with a number (`Apart`).
* C135: whether a repair is done depends on files being flagged as damaged, not on what libpar2 says (ParChecker.cpp:530). In a quick check a file whose download failed altogether but which is not empty is not flagged, since the number of available blocks stays the number of all blocks (ParChecker.cpp:160, 1341-1344): with only such files the check ends as "Repair not needed" although a repair is possible (`failed_not_repaired`). Files with each other's names or with extra data at the end are never flagged, even in a full check (`swapped_not_noticed`); a missing empty file only in a full one (`empty_not_noticed`); an I/O error of the verification ends as not needed, too, if no file is flagged (`unnoticed`).
* C135: if the check is cancelled after a successful repair it ends as "repair possible" although files were repaired and deleted (`cancelled_late`, ParChecker.cpp:570-577).
* C135: complete files of the set which are not recoverable are counted as complete, so that a missing recoverable file is hidden (`others_hide`); damaged ones make UpdateVerificationResults read through an iterator never set (`others_undefined`, par2repairer.cpp:1913-1921).
* C135 (not modelled): in VerifyDataFile of libpar2 an inner variable hides the hash of the whole file (par2repairer.cpp near 1467), so files without verification packet never match; AddDupeFiles scans the par2 file as if it was a directory, so the own directory is never searched (ParChecker.cpp:907-911).
* C136: ProcessMorePars and LoadMainParBak clear the flag "queue changed" after they asked for files (ParChecker.cpp:676-680, 741-745). If the last par2 file is deleted between, the message is lost: the check waits for a file which does not exist, until it is cancelled or another file of the download ends (`lost_wakeup`, `empty_waits`). If the file waited for is paused by the user, the check waits until it is resumed: pausing is not told (`paused_waits`).
* C136 (not modelled): Cleanup clears the list of added files while holding another mutex than the one which protects it (ParChecker.cpp:378-387).
* C137: no difference to the claim was found in the algorithm. Its flag m_working is a `volatile bool` (ParChecker.cpp:99), which is a data race in the sense of the C++ standard; the proof supposes sequential consistency.
* C138: the condition to wait for unrar is turned round (`curTime >= CurrentTime()`, DupeMatcher.cpp:79-81): unrar is ended as soon as the clock shows another second, not after 60 seconds (`ended_after_a_second`), and if the clock was set back it is waited for without a limit (`clock_back_waits`). If nothing was heard until then, all duplicates are used without a comparison (`nothing_heard`).
* C138: Prepare gives its own result variable as expected size (DupeMatcher.cpp:162, 184, 202-203), so the reading of the archive ends at the first file which is larger than one volume: the main file is not the largest one (`main_not_largest`). In a duplicate the reading ends at the first file of nearly the size, so one with the same main file can be missed (`same_main_missed`).
* C138 (not modelled): if a directory has no file, the uninitialised buffer `filename` is printed (DupeMatcher.cpp:161-165, 173-177). A name is taken for a fragment also if its begin is only the begin of the other name (`film.001` of `film2.002`, `split_iff`); this only costs time.
* C139: if the article which ends behind the command shows that its file is a duplicate, the deleted download is not deleted but post-processed, its files stay (`dupe_after_delete`: the test for `GetDupeDeleted` in PrePostProcessor.cpp:276-280 does not look whether the download is being deleted).
* C139: the health check acts also on a download which is being deleted (QueueCoordinator.cpp:773, 999-1025) and overwrites the command: a finally deleted download is post-processed and comes into the history (`health_after_final`).
* C139: a download without files can't be removed with the command which parks (it is left out of the condition in QueueEditor.cpp:780), it stays in the queue, marked as being deleted (`park_empty_stays`).
* C139: the commands for a download in post-processing don't end it (`post_goes_on`); "final" deletes it from the history at the end, even if it succeeds (`post_final`). The comment on the result of DeleteQueueEntry (QueueCoordinator.cpp:1073-1095) says the contrary of what is returned; nobody uses it.
* C140: a directory directly below the root is never created, and so nothing below it (`below_root`): the path above `/x` is the empty text, which FileSystem.cpp:150-159 tries to create. The root itself counts as a directory which can't be created (`root_fails`), written with two slashes it is found. Paths of more than 1023 bytes are cut without a message (`cut`).
* C141: times are cut to 32 bits before they are divided (Log.cpp:76, 323, 340). A log file with a date behind 19 January 2038 is deleted at once (`future_deleted`), and from that day on the files of the years before are never deleted (`past_kept`).
* C141: the configured name is used as a mask. With `#` or `?` in it the numbers are read in wrong places, and the file which is being written to is deleted (`wild_name`).
* C141: with a log file without directory the files are written into (and looked for in) a directory with the name of the log file, which isn't created (`no_directory`: the name and the directory are the same memory in Log.cpp:303-318).
* C142: a comparison without the name of a field (`>5`) is valid, but the number is not read (FeedFilter.cpp:277): the number at the beginning of the title is compared with 0, whatever is written (`no_field_no_number`).
* C142: a field which the item does not have counts as the number 0, also for texts: `attr-grabs:0` and `description:0` are met by items without attribute or description (`missing_is_zero`, FeedFilter.cpp:52-56).
* C142: Term::Compile reads the character behind the terminator of an empty term, of `-` and of `+` (FeedFilter.cpp:192). For the last rule of a filter this is one byte behind the allocated text. The value is not used; not modelled.
* C143: an option with an unknown name is no error: the name becomes the category and its value is lost (`unknown_option`, FeedFilter.cpp:764-768).
* C143: `priority`, `priority+`, `dupescore` and `dupescore+` without a number are accepted and set to 0, because strchr finds the terminator of the list of characters (`missing_number`, FeedFilter.cpp:661).
* C143: `Reject(...)` and `Require(...)` with brackets are no commands: the rule accepts the items whose title contains this text (`reject_accepts`).
* C144: a password in an nzb-file which ends with a reference by number (`&#33;`) is read together with the part of the file behind it (`number_at_end`): the loop in Util.cpp:894 passes the terminating zero, and the decoder goes on with `/meta>` and all that follows in the first 4 KB. Unpacking with such a password fails.
* C144: for a file of no bytes a zero is written before the buffer (`empty_file`; NzbFile.cpp:426). Such a file doesn't pass the XML parser, unless it is truncated between the two readings.
* C143: in the options of a feed rule a reference to a wildcard which doesn't exist stays in the category or duplicate key together with all references behind it (`missing_wildcard`); a text taken from the title of an item is expanded itself if it looks like a reference (`value_expanded`); behind the hundredth reference nothing is expanded (`after_hundred`).
* C145: a feed item with an empty description (or one of blanks only) ends the program (`empty_description`): `*m_tagContent` is a null pointer then (FeedFile.cpp:492-493, NString.h:125), and XmlStripTags calls strchr with it. An enclosure or a newznab attribute without attributes does so too (`no_attributes`; FeedFile.cpp:400, 417).
* C145: a title whose only quotation mark is its last character is read behind its end (`quote_at_end`; FeedFile.cpp:53-54).
* C145: each piece of a text given by the XML-parser is trimmed on its own, so that blanks around references are lost: `Tom &amp; Jerry` becomes `Tom&Jerry` (`blanks_lost`; FeedFile.cpp:530-570).
* C145: the current item isn't ended by its end tag: elements of the channel behind the items change the last item (`behind_items`). An enclosure with length 0 behind the attribute `size` discards the size (`size_lost`).
* C146: season and episode at the very end or the very beginning of a title are not found (`at_the_end`, `at_the_beginning`): the expression requires a character before and behind them (FeedInfo.cpp:143).
* C146: the number of the season is normalised, that of the episode isn't: `S02E05` and `S2E5` get different episodes and so different duplicate keys (`episode_zeros`).
* C146: for an item without title a null pointer is given to regexec when its season or episode is needed (`no_title`; FeedInfo.cpp:151).
* C147: errors of writing the article cache are not looked at (ArticleWriter.cpp:660): with a full disk the cached articles are removed from memory, counted and reported as saved, and remain completed (`write_error_lost`).
* C147: each time the output file can't be opened or created while the cache is written, one completed article is thrown away, "to prevent multiple error messages" (ArticleWriter.cpp:621-624, 639-642; `open_error_drops`).
* C148: completed files are looked up without regard to capital letters also where the file system distinguishes them (Repair.cpp:78): of two such files the par-check is told the checksum and state of the first for both (`case_confused`).
