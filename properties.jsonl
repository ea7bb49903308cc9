{"id": "C01", "title": "yEnc body decoding does not depend on how the network splits the data", "statement": "Feeding the body of an article to the yEnc decoder in pieces produces the same decoded bytes, the same end marker and the same decoder state as feeding it in one piece.", "quantifier": "every byte string, every way of cutting it into chunks, every decoder start state", "why_tests_cant": "the number of cuttings is exponential in the length; recv() chooses the cut points", "anchors": ["lib/yencode/ScalarDecoder.cpp:decode_scalar", "lib/yencode/YEncode.h:YEncode::decode"]}
{"id": "C02", "title": "yEnc round trip", "statement": "Every binary segment encoded by the built-in yEnc encoder (escaping, dot stuffing, 128 column lines) and decoded by the article decoder gives back exactly the original bytes, for any chunking, and the decoder stops exactly at the =y end line.", "quantifier": "every byte string and every chunking of its encoding", "why_tests_cant": "escape/dot/line-wrap interactions depend on absolute positions in an unbounded string", "anchors": ["daemon/nserv/YEncoder.cpp:YEncoder::WriteSegment", "lib/yencode/ScalarDecoder.cpp:decode_scalar"]}
{"id": "C03", "title": "CRC-32 implementation computes the standard CRC-32", "statement": "The table driven (slicing-by-4) CRC used for articles equals the bitwise reflected CRC-32 (polynomial 0xEDB88320) of the bytes appended so far, whatever the buffer alignment and however the data is split over calls.", "quantifier": "every sequence of byte strings with any alignment of each buffer", "why_tests_cant": "unbounded inputs; four 256-entry tables times alignment times split positions", "anchors": ["lib/yencode/SliceCrc.cpp:crc_slice", "daemon/util/Util.cpp:Crc32::Append", "daemon/util/Util.cpp:Crc32::Finish"]}
{"id": "C04", "title": "CRC combination", "statement": "Combining the CRC of two adjacent blocks and the length of the second gives the CRC of the concatenation; hence the file CRC assembled from article CRCs is the CRC of the file.", "quantifier": "every pair of byte strings (lengths below 2^32), any list of segments", "why_tests_cant": "lengths and contents unbounded; the algorithm is GF(2) matrix squaring driven by the bits of the length", "anchors": ["daemon/util/Util.cpp:Crc32::Combine", "daemon/util/Util.cpp:gf2_matrix_times", "daemon/util/Util.cpp:gf2_matrix_square"]}
{"id": "C05", "title": "A yEnc article is accepted only when its size and CRC agree", "statement": "The decoder reports an article as finished only if the end line was seen, the decoded size equals the size announced at the end, for single part posts the announced sizes agree, and (when CRC checking is on and a CRC was given) the computed CRC equals the announced one.", "quantifier": "every decoder state reachable by any sequence of input buffers", "why_tests_cant": "the verdict is a function of an unbounded history of buffers", "anchors": ["daemon/nntp/Decoder.cpp:Decoder::Check", "daemon/nntp/Decoder.cpp:Decoder::CheckYenc"]}
{"id": "C06", "title": "A decoder reused for a retry behaves like a new one", "statement": "After Clear() the article decoder gives the same result for an article as a freshly constructed decoder.", "quantifier": "every previous article (history) and every next article", "why_tests_cant": "depends on the whole history of the reused object", "anchors": ["daemon/nntp/Decoder.cpp:Decoder::Clear", "daemon/nntp/Decoder.cpp:Decoder::DecodeBuffer"]}
{"id": "C07", "title": "End-of-article detection in raw mode is independent of chunking", "statement": "With decoding disabled the end of the article is recognised exactly when the received stream contains the end marker CRLF.CRLF, for every chunking.", "quantifier": "every byte stream and every chunking", "why_tests_cant": "recv() may cut the five byte marker anywhere, including into three or more pieces", "anchors": ["daemon/nntp/Decoder.cpp:Decoder::ProcessRaw"]}
{"id": "C08", "title": "Buffered line reader loses and reorders nothing", "statement": "Reading lines from a connection yields exactly the received byte stream cut after each newline (or when the caller's buffer is full), independent of how the socket delivered the bytes.", "quantifier": "every byte stream, every sequence of socket read sizes, every caller buffer size of at least two", "why_tests_cant": "the reader state carries over between calls; recv splits arbitrarily", "anchors": ["daemon/connect/Connection.cpp:Connection::ReadLine"]}
{"id": "C09", "title": "A server connection is never used by two downloads and MaxConnections is respected", "statement": "For every history of acquiring/releasing connections and enabling/disabling servers, a connection handed out is not handed out again before it was released, and the pool never owns more connections of a server than its configured maximum.", "quantifier": "every sequence of pool operations, every server configuration, every random choice, every clock", "why_tests_cant": "unbounded interleavings of pool operations", "anchors": ["daemon/nntp/ServerPool.cpp:ServerPool::GetConnection", "daemon/nntp/ServerPool.cpp:ServerPool::LockedGetConnection", "daemon/nntp/ServerPool.cpp:ServerPool::FreeConnection", "daemon/nntp/ServerPool.cpp:ServerPool::InitConnections"]}
{"id": "C10", "title": "Connections come only from allowed servers, backup levels are used only when every server of the better level is optional and blocked", "statement": "A connection returned for a level belongs to an active server of that level or of a worse level, is not from a server (or same-level group mate) the caller excluded, matches a requested server, and a worse level is used only when all active servers of all better levels are optional and currently blocked.", "quantifier": "every pool state, request and random choice", "why_tests_cant": "quantifies over all server configurations and pool states", "anchors": ["daemon/nntp/ServerPool.cpp:ServerPool::GetConnection", "daemon/nntp/ServerPool.cpp:ServerPool::LockedGetConnection", "daemon/nntp/ServerPool.cpp:ServerPool::IsServerBlocked"]}
{"id": "C11", "title": "Server levels are normalised to 0..max without holes, preserving order", "statement": "After initialisation the normalised levels of usable servers are exactly 0..max, ordered like the configured levels, equal iff the configured levels are equal; servers of the lowest configured level always keep level 0 even if disabled; other disabled servers take part in no level.", "quantifier": "every list of servers with arbitrary levels and settings", "why_tests_cant": "unbounded configurations", "anchors": ["daemon/nntp/ServerPool.cpp:ServerPool::NormalizeLevels"]}
{"id": "C12", "title": "The free connection counter of a level equals the number of free connections", "statement": "At every moment the per-level counter used to decide whether a level has free connections equals the number of unused connections of active servers of that level.", "quantifier": "every history of pool operations including reconfiguration while connections are in use", "why_tests_cant": "reachable-state invariant over unbounded histories", "anchors": ["daemon/nntp/ServerPool.cpp:ServerPool::InitConnections", "daemon/nntp/ServerPool.cpp:ServerPool::FreeConnection"]}
{"id": "C13", "title": "An article is declared failed only after every eligible server was tried", "statement": "The download loop for an article ends as failed only if each server which is active and has connections has either failed (or a same-level group mate has) or is optional and blocked - or the failure was a fatal local error.", "quantifier": "every server list, every sequence of outcomes of connection attempts, blocking and retry settings", "why_tests_cant": "the loop is driven by an unbounded sequence of network outcomes", "anchors": ["daemon/nntp/ArticleDownloader.cpp:ArticleDownloader::Run"]}
{"id": "C14", "title": "Saving a state file is crash atomic", "statement": "Whatever the crash point during a save, at the next start the reader finds either the complete old contents or the complete new contents.", "quantifier": "every old contents (or no file), every new contents, every crash point, any number of successive saves", "why_tests_cant": "crash points and histories cannot be enumerated by tests; file system steps are not controllable", "anchors": ["daemon/queue/DiskState.cpp:StateFile::BeginWrite", "daemon/queue/DiskState.cpp:StateFile::FinishWrite", "daemon/queue/DiskState.cpp:StateFile::BeginRead", "daemon/queue/DiskState.cpp:StateFile::Discard"]}
{"id": "C15", "title": "A completed download survives a crash between the queue file and the history file", "statement": "An item that moves from queue to history is present in the queue or in the history after a restart, whatever the crash point of the save.", "quantifier": "every queue/history and every crash point during the save", "why_tests_cant": "cross-file crash points", "anchors": ["daemon/queue/DiskState.cpp:DiskState::SaveDownloadQueue"]}
{"id": "C16", "title": "Queue item settings survive a restart", "statement": "Saving an item's record to disk and loading it gives back the same record (all fields of the queue entry) for every field value.", "quantifier": "every record with arbitrary field values (strings without line breaks)", "why_tests_cant": "unbounded value domain of several dozen fields", "anchors": ["daemon/queue/DiskState.cpp:DiskState::SaveNzbInfo", "daemon/queue/DiskState.cpp:DiskState::LoadNzbInfo"]}
{"id": "C17", "title": "Partial file progress survives a restart", "statement": "Saving the per-article progress of a partially downloaded file and loading it restores offsets, sizes, CRCs and completion of every article; running articles become pending; a state with every article done is not restored as such.", "quantifier": "every list of articles with arbitrary offsets, sizes and states", "why_tests_cant": "unbounded articles and 64-bit value ranges", "anchors": ["daemon/queue/DiskState.cpp:DiskState::SaveFileState", "daemon/queue/DiskState.cpp:DiskState::LoadFileState"]}
{"id": "C18", "title": "Server statistics are matched to servers injectively across configuration changes", "statement": "After a restart with a changed server configuration no two configured servers are given the statistics of the same stored server, and unchanged servers keep theirs.", "quantifier": "every stored server list and every configured server list", "why_tests_cant": "unbounded lists with arbitrary equal names/hosts", "anchors": ["daemon/queue/DiskState.cpp:ServerRef::MatchServers", "daemon/queue/DiskState.cpp:FindCandidates"]}
{"id": "C19", "title": "Scheduled tasks run exactly once per due time", "statement": "For any sequence of scheduler ticks with gaps of at most 90 minutes, a task with a clock time and a weekday mask is executed exactly once for every due instant between the first and last tick, and never otherwise.", "quantifier": "every task, every start time, every increasing sequence of tick times with bounded gaps", "why_tests_cant": "unbounded schedules of ticks", "anchors": ["daemon/main/Scheduler.cpp:Scheduler::CheckTasks"]}
{"id": "C20", "title": "Moving queue entries never loses or duplicates one", "statement": "Every move/sort/reorder action leaves the queue a permutation of itself; the unselected entries keep their relative order; move-to-top puts exactly the selected entries first, move-to-bottom last.", "quantifier": "every queue, every selection, every offset", "why_tests_cant": "unbounded queues, selections and offsets (including out of range)", "anchors": ["daemon/queue/QueueEditor.cpp:QueueEditor::MoveEntry", "daemon/queue/QueueEditor.cpp:QueueEditor::MoveGroup", "daemon/queue/QueueEditor.cpp:QueueEditor::PrepareList", "daemon/queue/QueueEditor.cpp:QueueEditor::AlignGroups"]}
{"id": "C21", "title": "Splitting a download keeps the counters consistent", "statement": "After splitting files out of a queue entry, the file counts, paused counts and size totals of both entries describe their file lists and add up to the totals before.", "quantifier": "every entry and every selection of its files", "why_tests_cant": "unbounded entries and selections", "anchors": ["daemon/queue/QueueCoordinator.cpp:QueueCoordinator::SplitQueueEntries"]}
{"id": "C22", "title": "Merging downloads keeps the counters consistent and reports success", "statement": "Merging two queue entries yields one whose files are all files of both and whose counters and totals are the sums; the edit command reports success exactly if the merge happened.", "quantifier": "every pair / list of entries", "why_tests_cant": "unbounded entries", "anchors": ["daemon/queue/QueueCoordinator.cpp:QueueCoordinator::MergeQueueEntries", "daemon/queue/QueueEditor.cpp:QueueEditor::MergeGroups"]}
{"id": "C23", "title": "Pausing and priority edits keep the parent's counters exact", "statement": "After any sequence of pause/resume/priority/extra-priority edits the download's paused file count, paused size and extra-priority flag count equal what its file list says.", "quantifier": "every file list and every sequence of edits", "why_tests_cant": "unbounded histories", "anchors": ["daemon/queue/DownloadInfo.cpp:FileInfo::SetPaused", "daemon/queue/DownloadInfo.cpp:FileInfo::SetExtraPriority"]}
{"id": "C24", "title": "Health never leaves 0..100% and is 100% only without damage", "statement": "Reported health is within 0..1000 per mille for consistent counters, equals 1000 exactly if no data outside of par2-files failed, and the critical health threshold is within 0..1000.", "quantifier": "every combination of size counters satisfying the entry invariant", "why_tests_cant": "64-bit arithmetic domain", "anchors": ["daemon/queue/DownloadInfo.cpp:NzbInfo::CalcHealth", "daemon/queue/DownloadInfo.cpp:NzbInfo::CalcCriticalHealth"]}
{"id": "C25", "title": "The next article comes from the most urgent eligible download", "statement": "The article chosen for download is never from a paused or deleted file, never from a download ranked below another eligible one, and whenever some eligible article exists one is chosen.", "quantifier": "every queue state, every pause and propagation setting, every clock", "why_tests_cant": "unbounded queues", "anchors": ["daemon/queue/QueueCoordinator.cpp:QueueCoordinator::GetNextArticle"]}
{"id": "C26", "title": "Duplicate handling keeps at most one active copy and picks the best backup", "statement": "When a failed download has duplicates in history, the one put back into the queue has the highest score among eligible ones; an item already succeeded with a score at least as high is never replaced.", "quantifier": "every queue and history contents", "why_tests_cant": "unbounded histories", "anchors": ["daemon/queue/DupeCoordinator.cpp:DupeCoordinator::NzbFound", "daemon/queue/DupeCoordinator.cpp:DupeCoordinator::ReturnBestDupe"]}
{"id": "C27", "title": "Download volume is conserved", "statement": "For a clock which does not run backwards, the total volume and the sum over the recorded days equal the number of bytes reported, and each day's slot holds exactly the bytes reported on that day.", "quantifier": "every sequence of (time, bytes) reports with non-decreasing time", "why_tests_cant": "unbounded histories", "anchors": ["daemon/nntp/StatMeter.cpp:ServerVolume::CalcSlots", "daemon/nntp/StatMeter.cpp:ServerVolume::AddData"]}
{"id": "C28", "title": "Per-second/minute/hour charts show only recent data", "statement": "A chart slot never contains bytes older than the window it stands for (60 seconds, 60 minutes, 24 hours).", "quantifier": "every sequence of reports with non-decreasing time", "why_tests_cant": "depends on the gaps of an unbounded history", "anchors": ["daemon/nntp/StatMeter.cpp:ServerVolume::CalcSlots"]}
{"id": "C29", "title": "Speed meter total equals the sum of its slots", "statement": "At every moment the byte total used for the displayed speed equals the sum of the thirty slots and the slot index stays within the ring.", "quantifier": "every sequence of byte reports and clock readings, forwards or backwards", "why_tests_cant": "unbounded histories with arbitrary clock jumps", "anchors": ["daemon/nntp/StatMeter.cpp:StatMeter::AddSpeedReading", "daemon/nntp/StatMeter.cpp:StatMeter::CalcCurrentDownloadSpeed"]}
{"id": "C30", "title": "The quota stops downloads exactly when the limit is reached", "statement": "Quota reached is reported exactly if the monthly or daily limit is set and the bytes downloaded in the current billing month / day are at least the limit.", "quantifier": "every recorded history, every billing day and clock", "why_tests_cant": "unbounded histories and calendar positions", "anchors": ["daemon/nntp/StatMeter.cpp:StatMeter::CheckQuota", "daemon/nntp/StatMeter.cpp:StatMeter::CalcQuotaUsage", "daemon/nntp/StatMeter.cpp:StatMeter::CalcMonthSlots"]}
{"id": "C31", "title": "Article cache accounting is exact", "statement": "The amount of cached memory always equals the sum of the live segments, an allocation never pushes it over the configured limit, and the crash flag file exists exactly while the cache is non-empty.", "quantifier": "every sequence of allocate/resize/free", "why_tests_cant": "unbounded histories", "anchors": ["daemon/nntp/ArticleWriter.cpp:ArticleCache::Alloc", "daemon/nntp/ArticleWriter.cpp:ArticleCache::Realloc", "daemon/nntp/ArticleWriter.cpp:ArticleCache::Free"]}
{"id": "C32", "title": "A file assembled from its articles has every article at its offset", "statement": "When segments are ordered and disjoint the assembled file contains each finished article's bytes at its offset, zeros in holes before later articles, and nothing else.", "quantifier": "every list of articles with any mixture of cached/temp-file/failed parts", "why_tests_cant": "unbounded article lists", "anchors": ["daemon/nntp/ArticleWriter.cpp:ArticleWriter::CompleteFileParts"]}
{"id": "C33", "title": "Writing a decoded article never leaves its segment", "statement": "No byte is written outside the segment allocated for the article, for any sequence of decoded chunks.", "quantifier": "every sequence of chunk lengths and announced segment sizes", "why_tests_cant": "remote-controlled unbounded sequences", "anchors": ["daemon/nntp/ArticleWriter.cpp:ArticleWriter::Write", "daemon/nntp/ArticleDownloader.cpp:ArticleDownloader::Write"]}
{"id": "C34", "title": "Feed filter: the first deciding rule wins", "statement": "An item is accepted, rejected or ignored according to the first rule that decides (accept/reject whose expression matches, require whose expression does not match); option rules before it contribute their settings; without a decision the item is ignored.", "quantifier": "every rule list and every item", "why_tests_cant": "unbounded rule lists", "anchors": ["daemon/feed/FeedFilter.cpp:FeedFilter::Match"]}
{"id": "C35", "title": "Feed filter expressions evaluate to their boolean meaning", "statement": "An expression of terms, AND (juxtaposition), OR (|), NOT (-) and brackets matches exactly if its boolean value is true under the term values.", "quantifier": "every expression of any depth and every valuation", "why_tests_cant": "unbounded expression trees", "anchors": ["daemon/feed/FeedFilter.cpp:FeedFilter::Rule::MatchExpression"]}
{"id": "C36", "title": "Wildcard masks match exactly the glob meaning", "statement": "A mask with * ? and # matches a text exactly if the text can be split according to the mask (case-insensitively).", "quantifier": "every mask and every text", "why_tests_cant": "unbounded patterns/texts; backtracking behaviour", "anchors": ["daemon/util/Util.cpp:WildMask::Match"]}
{"id": "C37", "title": "Web access is granted exactly to holders of matching credentials", "statement": "A request gets control/restricted/add-only access exactly if it carries the corresponding user name and password (or the session token, or comes from an authorised address, or the control password is empty); otherwise it gets none.", "quantifier": "every configuration and every request", "why_tests_cant": "unbounded strings; many configuration corner cases", "anchors": ["daemon/remote/WebServer.cpp:WebProcessor::CheckCredentials", "daemon/remote/WebServer.cpp:WebProcessor::IsAuthorizedIp"]}
{"id": "C38", "title": "Static file requests cannot leave the web directory", "statement": "The web server opens a file for a request only if the path consists of safe characters and contains no parent-directory component.", "quantifier": "every request URL", "why_tests_cant": "unbounded attacker controlled strings", "anchors": ["daemon/remote/WebServer.cpp:WebProcessor::Dispatch"]}
{"id": "C39", "title": "File names made from untrusted input are valid", "statement": "The sanitised file name contains no separator, reserved or control character, has no trailing dot or blank, is no reserved device name, and sanitising again changes nothing.", "quantifier": "every byte string", "why_tests_cant": "unbounded attacker controlled strings", "anchors": ["daemon/util/FileSystem.cpp:FileSystem::MakeValidFilename"]}
{"id": "C40", "title": "A generated unique file name never collides", "statement": "The name produced for a new file in a directory does not exist in that directory, and one is always found.", "quantifier": "every directory contents and every base name", "why_tests_cant": "unbounded directories", "anchors": ["daemon/util/FileSystem.cpp:FileSystem::MakeUniqueFilename"]}
{"id": "C41", "title": "Base64 decoding inverts RFC 4648 encoding", "statement": "Decoding the standard base64 encoding of any byte string returns it, also when line breaks or other non-alphabet characters are interspersed.", "quantifier": "every byte string, every placement of ignored characters", "why_tests_cant": "unbounded inputs", "anchors": ["daemon/util/Util.cpp:WebUtil::DecodeBase64", "daemon/util/Util.cpp:DecodeByteQuartet"]}
{"id": "C42", "title": "XML API text is well formed and round trips", "statement": "Encoding text for the XML-RPC API produces no raw markup characters and decoding it with the XML decoder gives the text back (for printable ASCII).", "quantifier": "every text", "why_tests_cant": "unbounded texts", "anchors": ["daemon/util/Util.cpp:WebUtil::XmlEncode", "daemon/util/Util.cpp:WebUtil::XmlDecode"]}
{"id": "C43", "title": "JSON API text is well formed and round trips", "statement": "Encoding text for the JSON-RPC API produces a string without unescaped quotes, backslashes or control characters, and decoding gives the text back.", "quantifier": "every text", "why_tests_cant": "unbounded texts", "anchors": ["daemon/util/Util.cpp:WebUtil::JsonEncode", "daemon/util/Util.cpp:WebUtil::JsonDecode"]}
{"id": "C44", "title": "64-bit sizes survive the hi/lo split of the API", "statement": "Splitting a 64-bit number into two 32-bit halves and joining them gives the number back.", "quantifier": "every 64-bit value", "why_tests_cant": "2^64 values", "anchors": ["daemon/util/Util.cpp:Util::SplitInt64", "daemon/util/Util.cpp:Util::JoinInt64"]}
{"id": "C45", "title": "Calendar conversion is the proleptic Gregorian calendar", "statement": "Converting a broken-down UTC time to seconds since 1970 gives the Gregorian day count.", "quantifier": "every year, month, day, time (in int range)", "why_tests_cant": "unbounded years, leap rules", "anchors": ["daemon/util/Util.cpp:Util::Timegm"]}
{"id": "C46", "title": "Recognising volumes of a par2 set is consistent", "statement": "Being in the same par2 collection is an equivalence relation on par2 file names, and a parsed block count/base name is determined by the file name.", "quantifier": "every pair/triple of file names", "why_tests_cant": "unbounded strings", "anchors": ["daemon/postprocess/ParParser.cpp:ParParser::SameParCollection", "daemon/postprocess/ParParser.cpp:ParParser::ParseParFilename"]}
{"id": "C47", "title": "Parsing an NZB file list accounts every article once", "statement": "For a file entry of an NZB the size of the file equals the sizes of the listed articles plus the estimated size of the missing ones; total article count equals listed plus missing; a part number outside the list never corrupts it.", "quantifier": "every sequence of article entries with arbitrary part numbers and sizes", "why_tests_cant": "unbounded untrusted inputs", "anchors": ["daemon/queue/NzbFile.cpp:NzbFile::AddArticle", "daemon/queue/NzbFile.cpp:NzbFile::AddFileInfo"]}
{"id": "C48", "title": "Articles survive the whole receive path", "statement": "An article as produced by the built-in news server (header, part line, encoded data, end line, end marker), cut into network buffers in any way, is received as exactly the segment's bytes; the decoder reports success and the announced position, size, name and checksum.", "quantifier": "every segment content, file name, size and offset; every cutting into buffers", "why_tests_cant": "unbounded data and all cuttings; a marker or header may be cut anywhere", "anchors": ["daemon/nntp/Decoder.cpp:Decoder::DecodeBuffer", "daemon/nntp/ArticleDownloader.cpp:ArticleDownloader::Download", "daemon/nserv/YEncoder.cpp:YEncoder::WriteSegment"]}
{"id": "C49", "title": "Uuencoded articles are decoded to their data", "statement": "For an uuencoded article the bytes written to disk are the decoded data.", "quantifier": "every uuencoded article, every cutting", "why_tests_cant": "unbounded data", "anchors": ["daemon/nntp/Decoder.cpp:Decoder::DecodeUx", "daemon/nntp/Decoder.cpp:Decoder::DecodeBuffer"]}
{"id": "C50", "title": "The article decoder always terminates", "statement": "Whatever bytes a server sends, decoding a buffer terminates and the incremental decoder does not read outside of the buffer.", "quantifier": "every sequence of buffers", "why_tests_cant": "untrusted input of any length", "anchors": ["daemon/nntp/Decoder.cpp:Decoder::DecodeBuffer"]}
{"id": "C51", "title": "A server is given up for general failures only after ArticleRetries attempts", "statement": "A download ends as failed only if every server taking part was tried at least ArticleRetries times when its answers were general failures (or said the article is missing, damaged or too old, or could not be used).", "quantifier": "every server list, every sequence of network outcomes", "why_tests_cant": "the loop is driven by an unbounded sequence of outcomes of a shared pool", "anchors": ["daemon/nntp/ArticleDownloader.cpp:ArticleDownloader::Run"]}
{"id": "C52", "title": "Saved progress of queue items is what the next start shows", "statement": "When items of the queue changed after the last save of the queue and their progress was saved, the next start shows the changed data of exactly these items, the last saved data of the others in the same order, and the history; a crash while progress is saved loses at most that progress.", "quantifier": "every queue, history, set of changed items, earlier progress file and crash point", "why_tests_cant": "depends on the crash point and on files left by earlier saves", "anchors": ["daemon/queue/DiskState.cpp:DiskState::SaveDownloadProgress", "daemon/queue/DiskState.cpp:DiskState::LoadProgress"]}
{"id": "C53", "title": "A repairable download is never cancelled by the health check", "statement": "As long as the failed data of a download is not more than its undamaged par2-data, the health check neither pauses nor deletes nor parks it.", "quantifier": "all sizes, all options of the health check, every history of articles which arrive or fail", "why_tests_cant": "an inequality between two rounded quotients for all sizes", "anchors": ["daemon/queue/QueueCoordinator.cpp:QueueCoordinator::CheckHealth", "daemon/queue/DownloadInfo.cpp:NzbInfo::CalcHealth", "daemon/queue/DownloadInfo.cpp:NzbInfo::CalcCriticalHealth"]}
{"id": "C54", "title": "A restart does not change the progress which is shown", "statement": "When the program is stopped and started again, every counter of a queue entry - remaining and paused size, paused, par2 and extra priority files, downloaded and failed sizes and articles, articles of each server - is the same as before.", "quantifier": "every nzb-file and every history of edits, arrived, failed, completed and deleted files", "why_tests_cant": "the counters are kept incrementally before and computed from the files after the restart", "anchors": ["daemon/queue/DownloadInfo.cpp:NzbInfo::UpdateCurrentStats", "daemon/queue/DownloadInfo.cpp:NzbInfo::UpdateCompletedStats", "daemon/queue/DownloadInfo.cpp:NzbInfo::UpdateDeletedStats"]}
{"id": "C55", "title": "A new download is left out exactly when the same or a better one is there", "statement": "With duplicate check by score, a new download is added unless the same content is queued or in history, a duplicate was marked as good, or a duplicate with the same or a higher score succeeded or is queued; when it is added every queued duplicate with a lower score which is not in post-processing is moved to history, and no other queue entry changes.", "quantifier": "every queue, history, new download, and every choice of which queue entries can be removed at once", "why_tests_cant": "needs every combination of names, keys, scores, modes, marks and states, and the queue changes while the loop runs", "anchors": ["daemon/queue/DupeCoordinator.cpp:DupeCoordinator::NzbFound", "daemon/queue/DupeCoordinator.cpp:DupeCoordinator::SameNameOrKey"]}
{"id": "C56", "title": "The history is cleaned up by age and by marks only", "statement": "The periodical clean-up removes exactly the history entries older than the configured number of days, keeping a hidden record of downloads when duplicates are checked, and a hidden record means the same for the duplicate check as the download did; marking as good hides exactly the backups of the title, and from then on none is put back; marking as bad puts back the best backup.", "quantifier": "every history, time, option and mark", "why_tests_cant": "the list changes while it is traversed backwards by iterator and index; the equivalence of hidden records is over all states", "anchors": ["daemon/queue/HistoryCoordinator.cpp:HistoryCoordinator::ServiceWork", "daemon/queue/HistoryCoordinator.cpp:HistoryCoordinator::HistoryHide", "daemon/queue/DupeCoordinator.cpp:DupeCoordinator::HistoryMark", "daemon/queue/DupeCoordinator.cpp:DupeCoordinator::HistoryCleanup"]}
{"id": "C57", "title": "References of a feed filter are the texts matched by its wildcards", "statement": "In a rule whose mask matches, ${n} stands for the text matched by the n-th wildcard of the mask.", "quantifier": "every mask and every text which matches it", "why_tests_cant": "the positions are recorded while the matcher backtracks; wrong positions only show for masks which need backtracking", "anchors": ["daemon/util/Util.cpp:WildMask::Match", "daemon/feed/FeedFilter.cpp:FeedFilter::Rule::ExpandRefValues"]}
{"id": "C58", "title": "A condition on a text is met by a word or by a part of the text", "statement": "A condition on a text is met exactly if one word of the text matches the mask, or, when the mask stands between stars or contains punctuation, if some part of the text matches it; case is ignored.", "quantifier": "every mask and every text", "why_tests_cant": "all combinations of separators, blanks and wildcards at every place", "anchors": ["daemon/feed/FeedFilter.cpp:FeedFilter::Term::MatchText", "daemon/util/Util.cpp:Tokenizer::Next"]}
{"id": "C59", "title": "An item which a feed keeps listing is downloaded once", "statement": "An item which a feed lists, accepted by its filter, each time the feed is fetched, is added to the queue at most once.", "quantifier": "every history of fetches of all feeds, clean-ups and finished downloads, every setting of FeedHistory", "why_tests_cant": "depends on the times of many events over weeks", "anchors": ["daemon/feed/FeedCoordinator.cpp:FeedCoordinator::ProcessFeed", "daemon/feed/FeedCoordinator.cpp:FeedCoordinator::CleanupHistory", "daemon/feed/FeedCoordinator.cpp:FeedCoordinator::DownloadQueueUpdate"]}
{"id": "C60", "title": "A feed is fetched at its interval and retried sooner after failures", "statement": "After a successful fetch the next one is due after FeedX.Interval minutes; after failures in a row after 1, 2, 4, ... minutes but never more than the interval; it is fetched when the time has come and not before, and at once if the clock was set back.", "quantifier": "every sequence of results and every clock", "why_tests_cant": "doubling and capping over arbitrarily long sequences", "anchors": ["daemon/feed/FeedCoordinator.cpp:FeedCoordinator::SchedulerNextUpdate", "daemon/feed/FeedCoordinator.cpp:FeedCoordinator::Run"]}
{"id": "C61", "title": "A fetch adds exactly the new items, and none of the backlog", "statement": "A fetched feed adds exactly the accepted items which are not yet known, each once; with option Backlog the items found when the feed is fetched for the first time are never added.", "quantifier": "every feed, list of items and history", "why_tests_cant": "needs all combinations of repeated, known and rejected items, and of failing first fetches", "anchors": ["daemon/feed/FeedCoordinator.cpp:FeedCoordinator::ProcessFeed", "daemon/feed/FeedCoordinator.cpp:FeedCoordinator::FeedCompleted"]}
{"id": "C62", "title": "The memory of the feeds survives a restart", "statement": "After a restart every feed has its time of last update and every item its status and time.", "quantifier": "every list of feeds and items", "why_tests_cant": "all lengths and contents of urls given by the feed providers", "anchors": ["daemon/queue/DiskState.cpp:DiskState::SaveFeeds", "daemon/queue/DiskState.cpp:DiskState::LoadFeeds"]}
{"id": "C63", "title": "A new item of a feed is not lost", "statement": "An item which is remembered as fetched was put into the queue, also if the program crashes.", "quantifier": "every interleaving of fetching, saving and crashes", "why_tests_cant": "depends on the crash point between two threads", "anchors": ["daemon/feed/FeedCoordinator.cpp:FeedCoordinator::FeedCompleted", "daemon/feed/FeedCoordinator.cpp:FeedCoordinator::CheckSaveFeeds"]}
{"id": "C64", "title": "Feed items which are the same title get the same duplicate key", "statement": "The duplicate key of a feed item is determined by the options of the rule and the ids, season and episode of the item: two films with ids have the same key exactly if they are the same film, two episodes exactly if series, season and episode are the same.", "quantifier": "every item and every combination of options", "why_tests_cant": "collisions of keys over all ids and numbers", "anchors": ["daemon/feed/FeedInfo.cpp:FeedItemInfo::BuildDupeKey", "daemon/feed/FeedInfo.cpp:FeedItemInfo::AppendDupeKey"]}
{"id": "C65", "title": "Reading texts of XML documents and descriptions stays inside of the text", "statement": "Decoding a text of an XML request, feed or nzb-file, and cleaning the description of a feed item, read and write only the text, whatever it is.", "quantifier": "every text", "why_tests_cant": "needs every text, in particular every ending of it", "anchors": ["daemon/util/Util.cpp:WebUtil::XmlDecode", "daemon/util/Util.cpp:WebUtil::XmlRemoveEntities", "daemon/feed/FeedFile.cpp:FeedFile::ParseFormattedDescription"]}
{"id": "C66", "title": "The parameters of a JSON request are found as they were sent", "statement": "The next parameter of a JSON request, if it is a string, extends from its opening quote to its closing quote.", "quantifier": "every string with any escapes, anything before and behind it", "why_tests_cant": "all sequences of escapes", "anchors": ["daemon/util/Util.cpp:WebUtil::JsonNextValue"]}
{"id": "C67", "title": "Reading texts of JSON requests stays inside of the text", "statement": "Decoding a text of a JSON request reads and writes only the text, whatever it is.", "quantifier": "every text", "why_tests_cant": "needs every text, in particular every ending of it", "anchors": ["daemon/util/Util.cpp:WebUtil::JsonDecode"]}
{"id": "C68", "title": "Percent-encoded texts are decoded correctly and safely", "statement": "Decoding a percent-encoded text gives the text it stands for and never reads behind it; the address of a download stands for the same text after encoding.", "quantifier": "every text, also those which are not correctly encoded", "why_tests_cant": "needs every text, in particular every ending of it; reached without login", "anchors": ["daemon/util/Util.cpp:WebUtil::UrlDecode", "daemon/util/Util.cpp:WebUtil::UrlEncode", "daemon/remote/WebServer.cpp:WebProcessor::ParseUrl"]}
{"id": "C69", "title": "File names given by web servers are read correctly", "statement": "A quoted file name of a Content-Disposition header is read as HTTP defines it, and texts in Latin-1 become UTF-8 without loss and inside of their buffer.", "quantifier": "every name and every text", "why_tests_cant": "all sequences of quoted characters", "anchors": ["daemon/util/Util.cpp:WebUtil::HttpUnquote", "daemon/util/Util.cpp:WebUtil::Latin1ToUtf8"]}
{"id": "C70", "title": "The time of a feed item is its instant in universal time", "statement": "The time of a feed item given with an offset of its time zone is the instant it stands for.", "quantifier": "all times and all offsets", "why_tests_cant": "all combinations of sign, hours and minutes", "anchors": ["daemon/util/Util.cpp:WebUtil::ParseRfc822DateTime"]}
{"id": "C71", "title": "Requests of one connection are kept apart", "statement": "Every web request of a connection which is kept open is answered exactly once, in order, and exactly as if it were the only request of the connection; no bytes of a request are taken for another one.", "quantifier": "every sequence of requests over a connection", "why_tests_cant": "all sequences of requests, in particular refused ones (request smuggling behind a proxy)", "anchors": ["daemon/remote/RemoteServer.cpp:RequestProcessor::Execute", "daemon/remote/RemoteServer.cpp:RequestProcessor::ServWebRequest", "daemon/remote/WebServer.cpp:WebProcessor::Execute", "daemon/remote/WebServer.cpp:WebProcessor::ParseHeaders"]}
{"id": "C72", "title": "Users with limited access can do only what they are allowed to", "statement": "A user with the right to add can only add downloads and ask for the version; a restricted user can not save options and never sees the values of user names, passwords and other security options; whatever they send.", "quantifier": "every request of such a user, every set of options", "why_tests_cant": "all requests in all protocols; noninterference with all values of the hidden options", "anchors": ["daemon/remote/XmlRpc.cpp:XmlRpcProcessor::CreateCommand", "daemon/remote/XmlRpc.cpp:XmlRpcProcessor::MutliCall", "daemon/remote/XmlRpc.cpp:ConfigXmlCommand::Execute", "daemon/main/Options.cpp:Options::OptEntry::Restricted"]}
{"id": "C73", "title": "Links change nothing", "statement": "A request with the method GET (a link on a foreign web page followed by a logged-in user) executes no command which changes something.", "quantifier": "every url and every command", "why_tests_cant": "all urls and protocols", "anchors": ["daemon/remote/XmlRpc.cpp:XmlRpcProcessor::Dispatch"]}
{"id": "C74", "title": "The command which is named in a remote call is executed", "statement": "A remote call in JSON or XML executes exactly the command of the given name (in any case of letters) once, with the access of the user, and is refused exactly if the user may not use it.", "quantifier": "every method name, every access, any further content of the request", "why_tests_cant": "all names and all further content", "anchors": ["daemon/remote/XmlRpc.cpp:XmlRpcProcessor::Dispatch", "daemon/remote/XmlRpc.cpp:XmlRpcProcessor::CreateCommand", "daemon/util/Util.cpp:WebUtil::XmlFindTag", "daemon/util/Util.cpp:WebUtil::JsonFindField"]}
{"id": "C75", "title": "Downloads are stored in the configured directory", "statement": "The final directory of a download lies inside of the directory configured for downloads (or for its category), and belongs to it alone, whatever its name and its category are.", "quantifier": "every name of an nzb-file, every category, every configuration of directories", "why_tests_cant": "all names and categories (which users with the right to add can choose)", "anchors": ["daemon/queue/DownloadInfo.cpp:NzbInfo::MakeNiceNzbName", "daemon/queue/DownloadInfo.cpp:NzbInfo::BuildFinalDirName", "daemon/util/FileSystem.cpp:FileSystem::MakeValidFilename"]}
{"id": "C76", "title": "The par2-files needed for a repair are downloaded, and no others", "statement": "When a repair needs more blocks and the paused par2-files of the download have enough of them, files with at least the needed number of blocks are unpaused, none of which could be left out, and preferably files of the same set; otherwise none is unpaused.", "quantifier": "every list of files, every number of blocks", "why_tests_cant": "all sets of files and all orders of sorting equal files", "anchors": ["daemon/postprocess/Repair.cpp:RepairController::RequestMorePars", "daemon/postprocess/Repair.cpp:RepairController::FindPars"]}
{"id": "C77", "title": "The name of a file is taken from its subject", "statement": "Whatever the subject of a file in an nzb-file is, the name is a non-empty part of it and only the subject is read; a text with a dot in quotation marks is the name, otherwise the last word with an extension, and the suffix with the numbers of parts is not a part of it. Files with different subjects do not get the same name three times.", "quantifier": "every subject, every list of subjects", "why_tests_cant": "unbounded untrusted texts; out of bounds reads show no effect in tests", "anchors": ["daemon/queue/NzbFile.cpp:NzbFile::ParseSubject", "daemon/queue/NzbFile.cpp:NzbFile::HasDuplicateFilenames", "daemon/queue/NzbFile.cpp:NzbFile::BuildFilenames"]}
{"id": "C78", "title": "The same content gives the same hash", "statement": "The hashes of an nzb-file, by which duplicates are found, depend only on its files and articles, not on the order in which they are listed; files which are ignored do not change the filtered hash.", "quantifier": "every list of files, every order, every sorting algorithm", "why_tests_cant": "all permutations of unbounded lists", "anchors": ["daemon/queue/NzbFile.cpp:NzbFile::CalcHashes", "daemon/util/Util.cpp:Util::HashBJ96"]}
{"id": "C79", "title": "Post-processing of every download ends", "statement": "Whatever renaming, par-checks, unpackers, cleanup, moving and scripts report, and whatever is found on disk in between: the post-processing of a download comes to its end after a number of stages which is bounded by the number of par2-files left for download.", "quantifier": "every combination of options, every state of the download when it is queued, every sequence of results of the stages", "why_tests_cant": "unbounded sequences of results; the loop between unpack, par-check and renaming can be endless for one of them", "anchors": ["daemon/postprocess/PrePostProcessor.cpp:PrePostProcessor::StartJob", "daemon/postprocess/PrePostProcessor.cpp:PrePostProcessor::CheckRequestPar", "daemon/postprocess/PrePostProcessor.cpp:PrePostProcessor::CleanupJobs", "daemon/postprocess/Unpack.cpp:UnpackController::Completed"]}
{"id": "C80", "title": "A download which could not be repaired is left alone", "statement": "Once the repair of a download has failed nothing of it is unpacked, cleaned up or moved out of the intermediate directory, and it stays marked as failed. Files are moved or deleted by the cleanup only if unpack and repair have not failed and a successful unpack, a par-check or a complete download tells that the files are good.", "quantifier": "every reachable state of post-processing and every continuation", "why_tests_cant": "all histories of stages and results", "anchors": ["daemon/postprocess/PrePostProcessor.cpp:PrePostProcessor::StartJob", "daemon/postprocess/Repair.cpp:RepairController::ParCheckCompleted"]}
{"id": "C81", "title": "Scripts are executed once, after everything else, and their request for a par-check is fulfilled", "statement": "When post-processing of a download is completed, its scripts were executed exactly once and as the last stage, unless the user has cancelled it or has to start the par-check themselves. If a script requests a par-check it is made.", "quantifier": "every reachable state, every sequence of results of stages and scripts", "why_tests_cant": "all histories of stages and results", "anchors": ["daemon/extension/PostScript.cpp:PostScriptController::Run", "daemon/extension/PostScript.cpp:PostScriptController::AnalyseExitCode", "daemon/postprocess/PrePostProcessor.cpp:PrePostProcessor::CheckRequestPar"]}
{"id": "C82", "title": "Unpack is given up only after a par-check", "statement": "If a download has par2-files, it gets the status 'unpack failed' only after the unpackers have failed and a par-check has looked for damage, unless the unpacker could not be started, was stopped, or the unpacked files could not be moved.", "quantifier": "every reachable state, every result of unpackers and par-checks", "why_tests_cant": "all histories of unpack attempts and par-checks, quick and full", "anchors": ["daemon/postprocess/Unpack.cpp:UnpackController::Run", "daemon/postprocess/Unpack.cpp:UnpackController::Completed", "daemon/postprocess/Unpack.cpp:UnpackController::RequestParCheck", "daemon/postprocess/ParChecker.cpp:ParChecker::Execute"]}
{"id": "C83", "title": "Jobs of post-processing can be deleted at any time", "statement": "Whatever happens in any order - downloads are added, completed, changed, deleted, stages start, proceed and end, threads end, direct unpack ends, post-processing is paused, jobs are deleted by the user - the post-processor never uses a deleted download, never starts a second thread for a download, every active job is in the queue, and the number of jobs it keeps is the number of downloads in post-processing.", "quantifier": "every order of events of all threads, every number of downloads", "why_tests_cant": "races between the user, threads of stages and the post-processor; the time between two looks at the queue is 200 ms", "anchors": ["daemon/postprocess/PrePostProcessor.cpp:PrePostProcessor::PostQueueDelete", "daemon/postprocess/PrePostProcessor.cpp:PrePostProcessor::CheckPostQueue", "daemon/postprocess/PrePostProcessor.cpp:PrePostProcessor::JobCompleted", "daemon/postprocess/PrePostProcessor.cpp:PrePostProcessor::CleanupJobs"]}
{"id": "C84", "title": "No more post-processing at once than the strategy allows", "statement": "The number of stages running at the same time and the number of par-checks among them never exceeds the limits of PostStrategy: sequential - one; balanced - one par-check and one other; aggressive - three, one par-check; rocket - six, two par-checks.", "quantifier": "every order of events of all threads, every number of downloads, every strategy", "why_tests_cant": "the limits have to hold in all interleavings of threads", "anchors": ["daemon/postprocess/PrePostProcessor.cpp:PrePostProcessor::CanRunMoreJobs", "daemon/postprocess/PrePostProcessor.cpp:PrePostProcessor::CheckPostQueue", "daemon/postprocess/PrePostProcessor.cpp:PrePostProcessor::StartJob"]}
{"id": "C85", "title": "Post-processing follows priorities and the pause", "statement": "The next job is the waiting download with the highest priority, the first of them in the queue. While post-processing is paused no stage is started, except for downloads with force-priority.", "quantifier": "every queue, every reachable state", "why_tests_cant": "all queues and histories", "anchors": ["daemon/postprocess/PrePostProcessor.cpp:PrePostProcessor::PickNextJob", "daemon/postprocess/PrePostProcessor.cpp:PrePostProcessor::CheckPostQueue"]}
{"id": "C86", "title": "Starting of post-jobs ends and forgets no job", "statement": "Every look at the post-queue ends (it holds the lock of the queue), and at its end either the strategy allows no further job or no download waits for one.", "quantifier": "every reachable state of the queue", "why_tests_cant": "unbounded loop in which jobs go back to the queue", "anchors": ["daemon/postprocess/PrePostProcessor.cpp:PrePostProcessor::CheckPostQueue"]}
{"id": "C87", "title": "Moving a download to its destination loses and overwrites nothing", "statement": "When a completed download is moved from the intermediate to the destination directory, every file and directory is afterwards at the destination with the same content (under its name made valid, with a number if a file of this name was there), or still in the intermediate directory if the move is reported as failed; nothing which was at the destination before is overwritten.", "quantifier": "all contents of both directories, all file names, all errors of the operating system, moves within a device and between devices", "why_tests_cant": "full disks, errors and names cannot be enumerated", "anchors": ["daemon/postprocess/Cleanup.cpp:MoveController::MoveFiles", "daemon/util/FileSystem.cpp:FileSystem::MoveFile", "daemon/util/FileSystem.cpp:FileSystem::CopyFile", "daemon/util/FileSystem.cpp:FileSystem::MakeUniqueFilename"]}
{"id": "C88", "title": "Unpacking replaces archives by their contents and loses nothing", "statement": "If unpacking fails the files of the download stay as they are. If it succeeds everything extracted is at the destination under its name; archives are deleted only if everything was extracted and moved and only if the option UnpackCleanupDisk is set; files which are neither archives nor replaced by an extracted file stay; extracted files are never deleted as archives.", "quantifier": "all contents of the directories, all names, all errors of the operating system", "why_tests_cant": "names, contents and errors cannot be enumerated", "anchors": ["daemon/postprocess/Unpack.cpp:UnpackController::Cleanup", "daemon/postprocess/Unpack.cpp:UnpackController::FileHasRarSignature", "daemon/util/FileSystem.cpp:FileSystem::MoveFile"]}
{"id": "C89", "title": "The cleanup deletes exactly the files with listed extensions", "statement": "After post-processing the files whose names end with an entry of the option ExtCleanupDisk, in any case, or fit an entry which is a mask, are deleted in all subdirectories; all other files and all directories stay. It is reported as failed exactly if such a file could not be deleted.", "quantifier": "all trees of files, all names, all values of the option", "why_tests_cant": "all names, lists and depths of directories", "anchors": ["daemon/postprocess/Cleanup.cpp:CleanupController::Cleanup", "daemon/util/Util.cpp:Util::MatchFileExt", "daemon/util/Util.cpp:Tokenizer"]}
{"id": "C90", "title": "A joined file is complete", "statement": "If split files are joined, the joined file is the concatenation of all fragments in the order of their numbers, and only joined fragments are deleted. If a fragment is missing (all but the last have the same size) and there was no successful par-check, the files are not joined.", "quantifier": "all contents of the directory, all numbers of fragments, all errors of the operating system", "why_tests_cant": "all sets of missing fragments", "anchors": ["daemon/postprocess/Unpack.cpp:UnpackController::JoinFile", "daemon/postprocess/Unpack.cpp:UnpackController::JoinSplittedFiles"]}
{"id": "C91", "title": "The headers of rar volumes are read as written, and reading ends for every file", "statement": "For every volume of version 3 or 5 without encrypted headers, the number, the naming scheme, the marks for several volumes and for a next volume, and the names, times, attributes, sizes and continuation marks of the files are read as they were written. For every content of a file, also a damaged or forged one, reading ends and has a defined result.", "quantifier": "all volumes with any number of files, records and other blocks and any unused fields; all byte sequences as contents of files", "why_tests_cant": "all archives and all damaged files; endless loops show only with particular bytes", "anchors": ["daemon/postprocess/RarReader.cpp:RarVolume::Read", "daemon/postprocess/RarReader.cpp:RarVolume::ReadRar3Volume", "daemon/postprocess/RarReader.cpp:RarVolume::ReadRar5Volume", "daemon/postprocess/RarReader.cpp:RarVolume::ReadV"]}
{"id": "C92", "title": "Renaming of obfuscated rar files loses nothing and names only complete archives", "statement": "When the rar files of a download are renamed, no content is lost or overwritten, files which are not rar volumes keep their names, only complete archives from the first to the last volume are renamed, archives whose names are good keep them, all others get the name of their largest file with the number of the volume, in their directory, and a name which is used is not taken.", "quantifier": "all contents of the directories, all sets of volumes, all names within archives, all failures to rename", "why_tests_cant": "names and volumes come from the poster of the download; archives can share names, names can be used already", "anchors": ["daemon/postprocess/RarRenamer.cpp:RarRenamer::Execute", "daemon/postprocess/RarRenamer.cpp:RarRenamer::RenameFiles", "daemon/postprocess/RarRenamer.cpp:RarRenamer::MakeSets", "daemon/postprocess/RarRenamer.cpp:RarRenamer::IsSetProperlyNamed", "daemon/postprocess/RarRenamer.cpp:RarRenamer::FindMainFile"]}
{"id": "C93", "title": "Incoming nzb-files are processed when they no longer change", "statement": "A file in the directory for incoming files is processed by a periodic scan only after it has not changed for the configured number of seconds; and a file which does not change is processed at the first scan after that time.", "quantifier": "all histories of scans, all times, all sizes of all files, all settings of interval and age", "why_tests_cant": "depends on when a file grows relative to the times of scans", "anchors": ["daemon/queue/Scanner.cpp:Scanner::CanProcessFile", "daemon/queue/Scanner.cpp:Scanner::DropOldFiles", "daemon/queue/Scanner.cpp:Scanner::ServiceWork", "daemon/queue/Scanner.cpp:Scanner::CheckIncomingNzbs"]}
{"id": "C94", "title": "Each incoming nzb-file is added exactly once and nothing is lost", "statement": "A scan of the directory for incoming files ends, loses or overwrites no file, adds each nzb-file exactly once with its own contents, marks it as queued or as wrong, leaves all other files as they were, and a later scan adds nothing again; a crash at any moment does not lose an nzb-file.", "quantifier": "all contents of the directory, all names, all results of parsing, all failures to rename, all crash points", "why_tests_cant": "names can be in use already, renaming can fail, crashes can come between two steps", "anchors": ["daemon/queue/Scanner.cpp:Scanner::CheckIncomingNzbs", "daemon/queue/Scanner.cpp:Scanner::ProcessIncomingFile", "daemon/queue/Scanner.cpp:Scanner::AddFileToQueue", "daemon/util/FileSystem.cpp:FileSystem::RenameBak"]}
{"id": "C95", "title": "Requests which add nzb-files at the same time do not disturb each other", "statement": "When a request to add an nzb-file returns, its file is in the queue exactly once, with the category, priority and other parameters of this request, and the reported status is that of its file; the status is never written after the request has returned.", "quantifier": "any number of requests, all interleavings with each other and with periodic and requested scans", "why_tests_cant": "races between threads show only in rare schedules", "anchors": ["daemon/queue/Scanner.cpp:Scanner::AddExternalFile", "daemon/queue/Scanner.cpp:Scanner::ScanNzbDir", "daemon/queue/Scanner.cpp:Scanner::ServiceWork", "daemon/queue/Scanner.cpp:Scanner::ProcessIncomingFile"]}
{"id": "C96", "title": "Files are renamed by par2-files without loss, to the names recorded for their contents", "statement": "Whatever a directory contains and its par2-files say, renaming ends, no file is lost or overwritten, files which are not described keep their names, a file whose begin is described gets the described name if it is free, and the download is reported as incomplete exactly if the begin of a described file, not to be ignored, is in no file.", "quantifier": "all directories, all names, all sets of par2-files and their descriptions, damaged ones included, all failures to rename", "why_tests_cant": "depends on the order of the files in the directory and on which names are in use; obfuscated names are arbitrary", "anchors": ["daemon/postprocess/ParRenamer.cpp:ParRenamer::Execute", "daemon/postprocess/ParRenamer.cpp:ParRenamer::CheckRegularFile", "daemon/postprocess/ParRenamer.cpp:ParRenamer::RenameParFile", "daemon/postprocess/ParRenamer.cpp:ParRenamer::LoadParFile", "daemon/postprocess/ParRenamer.cpp:ParRenamer::CheckMissing", "daemon/postprocess/ParRenamer.cpp:ParRenamer::RenameBadParFiles"]}
{"id": "C97", "title": "An added URL is fetched once at a time, is never lost, and is not added after its deletion", "statement": "Never more URLs are fetched at the same time than allowed; whenever a fetch may start and a URL waits, the first one with the highest priority is fetched. No URL is fetched by two threads at once, and what is fetched stays in the queue until then. Each added URL is at every moment exactly one of: in the queue (waiting or being fetched), in the history with a reason, replaced by its nzb-file, or removed. With a history it is removed only after a request for that. A URL whose deletion was accepted is not added.", "quantifier": "all sequences of added URLs, requests and answers of servers and scanner; all schedules of the threads which fetch; ends of the program", "why_tests_cant": "all interleavings of threads with requests of the user; the windows between two locks are a few instructions long", "anchors": ["daemon/queue/UrlCoordinator.cpp:UrlCoordinator::Run", "daemon/queue/UrlCoordinator.cpp:UrlCoordinator::GetNextUrl", "daemon/queue/UrlCoordinator.cpp:UrlCoordinator::UrlCompleted", "daemon/queue/UrlCoordinator.cpp:UrlCoordinator::DeleteQueueEntry", "daemon/queue/HistoryCoordinator.cpp:HistoryCoordinator::HistoryRedownload"]}
{"id": "C98", "title": "A download returned from the history fetches exactly what is missing", "statement": "With the request to retry failed articles, every file of the download which did not end successfully goes back to the queue, and each of its articles is fetched again unless it was downloaded and the file is on disk; with the request for the remaining files, exactly the untried articles are fetched (all, if nothing of the file is on disk). Downloaded articles which are on disk are not fetched again, files which ended successfully are neither removed nor fetched again, and the totals of the download (downloaded, failed, remaining) change exactly as its articles do.", "quantifier": "all downloads in the history, all states of their articles, all contents of the queue and destination directories", "why_tests_cant": "all combinations of states of articles and files with what is on disk; the totals are updated in four different places", "anchors": ["daemon/queue/HistoryCoordinator.cpp:HistoryCoordinator::HistoryRetry", "daemon/queue/HistoryCoordinator.cpp:HistoryCoordinator::ResetArticles", "daemon/queue/HistoryCoordinator.cpp:HistoryCoordinator::HistoryReturn", "daemon/queue/HistoryCoordinator.cpp:HistoryCoordinator::AddToHistory", "daemon/queue/QueueCoordinator.cpp:QueueCoordinator::DeleteFileInfo", "daemon/queue/DiskState.cpp:DiskState::LoadFileState"]}
{"id": "C99", "title": "The configuration file means what it says", "statement": "Each option has the value given by the last line which names it, with every reference ${Name} replaced by the value which that option has at this line; names are compared ignoring the case; comments, blank lines and both kinds of line breaks have no effect on it; each line which is no assignment or names no option which may be set is reported as an error and changes nothing. Whatever the file and the command line contain, the options which describe the program itself keep their values, no option disappears or is there twice, and its default stays. A user with restricted access is shown no value of an option of access, of a script, or named after a username or password, and every other value.", "quantifier": "all contents of the configuration file, all option strings on the command line, all option names and values", "why_tests_cant": "unbounded texts with nested references; hostile files; any spelling of the names", "anchors": ["daemon/main/Options.cpp:Options::SetOption", "daemon/main/Options.cpp:Options::LoadConfigFile", "daemon/main/Options.cpp:Options::SetOptionString", "daemon/main/Options.cpp:Options::ValidateOptionName", "daemon/main/Options.cpp:Options::ConvertOldOption", "daemon/main/Options.cpp:Options::OptEntry::Restricted", "daemon/remote/XmlRpc.cpp:ConfigXmlCommand::Execute"]}
{"id": "C100", "title": "The value of an option means what the manual says", "statement": "An option with a list of values accepts each of them in any case without an error and shows the program's own name for it afterwards; every other value is reported and replaced by the default. An option with a number takes exactly the number which is written (umask in base 8), every text which is not a whole number is reported and replaced by the default, and a number which the program writes is read back. The speed limit is in KB, a time correction of at most a day is in hours and otherwise in minutes. No value makes the program read outside of its tables.", "quantifier": "all texts as value and as default of an option, all numbers, all lists of values", "why_tests_cant": "unbounded texts; any spelling; numbers outside of the range of the machine type", "anchors": ["daemon/main/Options.cpp:Options::ParseEnumValue", "daemon/main/Options.cpp:Options::ParseIntValue", "daemon/main/Options.cpp:Options::InitOptions", "daemon/main/Options.cpp:Options::OptEntry::SetValue"]}
{"id": "C101", "title": "A task of the scheduler runs at the times and on the days which its definition says", "statement": "A definition with a list of times, a list of weekdays, a known command and the parameter it needs adds exactly one task for each time of the day, 24 for a minute of every hour and one for the start of the program, in the order of the list, and each of them is due at exactly that time on exactly these days of the week, on every day if none are given. Whatever the texts of the options are, a task which is added has a valid time, days of the week and the parameter its command needs; an invalid definition is reported and adds nothing. The definitions are read in the order of their numbers up to the first missing one.", "quantifier": "all texts of the options of a task, all lists of times and of weekdays, all commands, all moments, all sets of options", "why_tests_cant": "unbounded texts and lists; every moment; any subset of the numbers may be defined", "anchors": ["daemon/main/Options.cpp:Options::InitScheduler", "daemon/main/Options.cpp:Options::CreateSchedulerTask", "daemon/main/Options.cpp:Options::ParseTime", "daemon/main/Options.cpp:Options::ParseWeekDays", "daemon/main/Scheduler.cpp:Scheduler::CheckTasks"]}
{"id": "C102", "title": "A command line is split into the arguments which were written", "statement": "Words with blanks between them, and arguments in apostrophes in which each apostrophe is written twice, are handed to the external program one by one and unchanged, whatever bytes they contain and however many there are. Whatever the text, the arguments consist of bytes of the text in its order and the buffer is never overrun.", "quantifier": "all lists of arguments, all texts", "why_tests_cant": "unbounded texts and lists; any byte in an argument", "anchors": ["daemon/util/Util.cpp:Util::SplitCommandLine"]}
{"id": "C103", "title": "Servers, categories and feeds have the values which their options say", "statement": "A server with host, port and number of connections, a feed with an address and a category with a name are added with exactly the values of their options, and with the documented values where an option is not set; one without them is reported and not added. The sections are read by their numbers, each once, up to the first number which has none of the options. The name of a category stands for the first category of this name in any case, and, where aliases are used, otherwise for the first one with an alias which matches the name as a pattern. A relative directory of a category is one below the option DestDir, an absolute one is taken as it is.", "quantifier": "all sets of options, all values, all lists of categories, all names and aliases", "why_tests_cant": "unbounded texts and numbers of sections; any subset of the options may be set", "anchors": ["daemon/main/Options.cpp:Options::InitServers", "daemon/main/Options.cpp:Options::InitFeeds", "daemon/main/Options.cpp:Options::InitCategories", "daemon/main/Options.cpp:Options::Categories::FindCategory", "daemon/main/Options.cpp:Options::CheckDir", "daemon/nntp/NewsServer.cpp:NewsServer::NewsServer", "daemon/feed/FeedInfo.cpp:FeedInfo::FeedInfo"]}
{"id": "C104", "title": "A download gets the parameters of its category, and a change of the category or a scan-script changes only what it says", "statement": "A new download keeps the parameters which were given for it; in addition it gets whether to unpack from its category and yes for each post-processing or queue script which is in force for the category, and nothing else. A change of the category with its parameters switches on the scripts which only the new category has, switches off those which only the old one has, sets unpacking if it differs, and changes nothing else. A command of a scan-script changes exactly what it names; other output changes nothing. No two parameters ever have the same name.", "quantifier": "all parameters, categories, lists of extensions and scripts, all outputs of scan-scripts", "why_tests_cant": "unbounded lists and texts; names in any case; any sequence of commands", "anchors": ["daemon/queue/Scanner.cpp:Scanner::InitPPParameters", "daemon/queue/QueueEditor.cpp:QueueEditor::SetNzbCategory", "daemon/queue/DownloadInfo.cpp:NzbParameterList::SetParameter", "daemon/extension/ScanScript.cpp:ScanScriptController::AddMessage", "daemon/extension/ScanScript.cpp:ScanScriptController::HasScripts", "daemon/extension/NzbScript.cpp:NzbScriptController::ExecuteScriptList"]}
{"id": "C105", "title": "A URL is asked for at the host, port and path which it names, redirections follow the rules, and a server cannot choose where the file is stored", "statement": "A URL with a protocol, optional user and password, host, optional port and path is taken apart into exactly these; the request goes to that host and port (80 or 443 if none is given, with encryption exactly for https), asks for that path and names the host. A redirection to a full address leads there, one to a path leads to that path at the same server, one to a relative path replaces the last component of the path. The file name in a reply, quoted or not, is taken over, and whatever the reply says the name has no directory.", "quantifier": "all URLs, all redirections and all headers of replies", "why_tests_cant": "unbounded texts; the texts come from servers which can send anything", "anchors": ["daemon/util/Util.cpp:URL::ParseUrl", "daemon/connect/WebDownloader.cpp:WebDownloader::CreateConnection", "daemon/connect/WebDownloader.cpp:WebDownloader::SendHeaders", "daemon/connect/WebDownloader.cpp:WebDownloader::ParseFilename", "daemon/connect/WebDownloader.cpp:WebDownloader::ParseRedirect"]}
{"id": "C106", "title": "A URL is complete only with the whole document, whatever arrives in whatever pieces, and the number of requests is limited", "statement": "When the announced number of bytes has arrived the download is complete and the file holds exactly the body, in whatever pieces it came; when fewer arrive it has failed and there is no file. A download is complete only after a reply with a positive answer, and a file is left only by a complete download. Up to five redirections in a row are followed; more are a failure. 404 and invalid addresses end the download at once; other failures are retried as often as the option says, failures to connect at least ten times, and the download ends with the first turn after which no retry is left. The number of requests is limited whatever the servers answer.", "quantifier": "all replies (text, pieces, closings), all histories of replies, all options, all moments of a stop or pause", "why_tests_cant": "unbounded lengths and pieces; unbounded histories of failures and redirections", "anchors": ["daemon/connect/WebDownloader.cpp:WebDownloader::Run", "daemon/connect/WebDownloader.cpp:WebDownloader::Download", "daemon/connect/WebDownloader.cpp:WebDownloader::DownloadWithRedirects", "daemon/connect/WebDownloader.cpp:WebDownloader::DownloadHeaders", "daemon/connect/WebDownloader.cpp:WebDownloader::DownloadBody", "daemon/connect/WebDownloader.cpp:WebDownloader::CheckResponse", "daemon/connect/WebDownloader.cpp:WebDownloader::ProcessHeader", "daemon/connect/WebDownloader.cpp:WebDownloader::Write"]}
{"id": "C107", "title": "Saving the settings writes exactly the given options and keeps the rest of the configuration file", "statement": "After the settings page has saved a list of options, reading the configuration gives exactly these options with exactly these values; every line of the file which is not an option is still there, unchanged and in the same order; every option is at the place where it was, new ones follow at the end; saving the same again changes nothing. When a configuration of an earlier version is read, the scripts in ScanScript, QueueScript and FeedScript are added to the list of extensions (and to those of categories which have their own), no script is lost or listed twice, and nothing else changes.", "quantifier": "all configuration files and all lists of options and values", "why_tests_cant": "unbounded files, names and values; the file may end anywhere; the writing may be interrupted anywhere", "anchors": ["daemon/extension/ScriptConfig.cpp:ScriptConfig::LoadConfig", "daemon/extension/ScriptConfig.cpp:ScriptConfig::SaveConfig", "daemon/main/Options.cpp:Options::ConvertOldOptions", "daemon/main/Options.cpp:Options::MergeOldScriptOption", "daemon/main/Options.cpp:Options::HasScript"]}
{"id": "C108", "title": "A new collection takes its place in the queue, and of a file which is listed twice the bigger one is kept", "statement": "A collection which is added is the first or the last entry of the queue, as asked; one which was fetched from a URL takes the place and the number of the URL. No other entry changes. If a file name occurs exactly twice in it and duplicates are checked, the bigger of the two is kept, otherwise all files are kept; no name is lost, the order stays and the counters are those of the files which are kept. What the duplicate check refuses is not in the queue but at the top of the history (or nowhere, if it must leave no trace), and the memory of entries is not used after they are destroyed.", "quantifier": "all collections, queues, histories, options and results of the duplicate check", "why_tests_cant": "unbounded lists of files and entries with any names and sizes", "anchors": ["daemon/queue/QueueCoordinator.cpp:QueueCoordinator::AddNzbFileToQueue", "daemon/queue/QueueCoordinator.cpp:QueueCoordinator::CheckDupeFileInfos", "daemon/postprocess/PrePostProcessor.cpp:PrePostProcessor::NzbAdded", "daemon/postprocess/PrePostProcessor.cpp:PrePostProcessor::NzbCompleted"]}
{"id": "C109", "title": "Changing the name or the category of a download moves what was downloaded and loses nothing", "statement": "After the name or the category of an entry is changed, its files are in the directory which belongs to the new name and category, under the same names and with the same contents; other files in the old and the new directory are untouched, nothing is overwritten, and the old directory is removed exactly if it is empty. Whatever fails, every file is still in the old or in the new directory. An entry in post-processing and an empty name are refused without any change.", "quantifier": "all entries, directories, options and answers of the operating system", "why_tests_cant": "unbounded directories and every combination of failures", "anchors": ["daemon/queue/QueueCoordinator.cpp:QueueCoordinator::SetQueueEntryCategory", "daemon/queue/QueueCoordinator.cpp:QueueCoordinator::SetQueueEntryName", "daemon/queue/DownloadInfo.cpp:NzbInfo::BuildDestDirName", "daemon/nntp/ArticleWriter.cpp:ArticleWriter::MoveCompletedFiles"]}
{"id": "C110", "title": "The parameters of remote calls arrive as they were sent", "statement": "Whatever numbers, truth values and texts a client sends with a call, in JSON, in XML or in a link, the command works with exactly these values in this order, and it stops where the parameters end: editing the queue is done with the command, text and entries which were named, saving the settings saves the options which were sent, adding a download takes all its properties, servers are switched and limits are set as asked. How the request is written (blanks, arrays, other members) does not matter, and memory behind the request is never read.", "quantifier": "all requests, numbers of parameters and texts", "why_tests_cant": "unbounded texts and lists, any white space and any members around the parameters", "anchors": ["daemon/remote/XmlRpc.cpp:XmlCommand::NextParamAsInt", "daemon/remote/XmlRpc.cpp:XmlCommand::NextParamAsStr", "daemon/remote/XmlRpc.cpp:XmlCommand::NextParamAsBool", "daemon/remote/XmlRpc.cpp:EditQueueXmlCommand::Execute", "daemon/remote/XmlRpc.cpp:DownloadXmlCommand::Execute", "daemon/remote/XmlRpc.cpp:SaveConfigXmlCommand::Execute"]}
{"id": "C111", "title": "Edits of the queue change exactly the files and entries which are named", "statement": "Pausing, resuming, setting priority, parameters, duplicate key, score and mode, and deleting affect exactly the files or entries whose ids, names or matching regular expressions are given, no matter in which order or how often they are given, and no other property of them; pausing par-files pauses exactly the par-files of these, and pausing extra par-files leaves in every entry the par-file which is no volume, or one of the smallest volumes. A name which does not exist or an expression which is not valid changes nothing. Success is reported if and only if there was something to change and the argument was valid.", "quantifier": "all queues, lists of ids, names and expressions, and arguments", "why_tests_cant": "unbounded queues and lists, with unknown, repeated and mixed ids and names", "anchors": ["daemon/queue/QueueEditor.cpp:QueueEditor::EditList", "daemon/queue/QueueEditor.cpp:QueueEditor::InternEditList", "daemon/queue/QueueEditor.cpp:QueueEditor::PrepareList", "daemon/queue/QueueEditor.cpp:QueueEditor::BuildIdListFromNameList", "daemon/queue/QueueEditor.cpp:QueueEditor::EditGroup", "daemon/queue/QueueEditor.cpp:QueueEditor::PauseParsInGroups", "daemon/queue/QueueEditor.cpp:QueueEditor::PausePars"]}
{"id": "C112", "title": "Sorting the files of an entry gives the order in which they are needed", "statement": "When the files of an entry are sorted, no file is lost or doubled; files which are no par-files come before the par-files, the first part of an archive (.rar) comes before its further parts (.r00, .r01, ...), the par-files of one collection are ordered by size, and everything else by name. This holds for every list of files, and sorting always ends.", "quantifier": "all lists of files with any names and sizes", "why_tests_cant": "a comparison which is not transitive for some names makes sorting undefined; this shows only with certain triples of names", "anchors": ["daemon/queue/QueueEditor.cpp:QueueEditor::SortGroupFiles", "daemon/postprocess/ParParser.cpp:ParParser::SameParCollection"]}
{"id": "C113", "title": "The log shows the latest messages and queries get the ones they ask for", "statement": "Every message goes to the places configured for its kind: to the log in memory, which keeps the latest LogBuffer messages since it was cleared, and to the log file, in order. This includes messages written before the options were known. The messages in memory have consecutive ids; a query gets the messages from an id on or the given number of last messages, so that a client which asks for everything after the last id it knows misses no message that fits into the buffer and gets none twice. The binary protocol announces as many messages and bytes as it sends.", "quantifier": "all sequences of messages, of clearing and of (re)reading options, all queries, all configurations of targets", "why_tests_cant": "loss, duplication or renumbering appears only for certain interleavings of messages, trimming, clearing and initialisation", "anchors": ["daemon/util/Log.cpp:Log::AddMessage", "daemon/util/Log.cpp:Log::InitOptions", "daemon/remote/XmlRpc.cpp:LogXmlCommand::Execute", "daemon/remote/BinRpc.cpp:LogBinCommand::Execute"]}
{"id": "C114", "title": "The log of an entry survives restarts and crashes", "statement": "The messages written to the log of an entry in the queue directory are read back in order, with kind, time and text (line ends and tabs become spaces, very long texts are cut), after any number of messages. If a crash leaves only a part of a message in the file, no other message is lost except the one written next. Who reads while a message is being written gets all messages before it.", "quantifier": "all sequences of messages with any texts, all points at which writing a message may stop", "why_tests_cant": "the text of a message is arbitrary and a crash may leave any prefix of a line; what a damaged line does to the following ones depends on where it was cut", "anchors": ["daemon/queue/DiskState.cpp:DiskState::AppendNzbMessage", "daemon/queue/DiskState.cpp:DiskState::LoadNzbMessages", "daemon/queue/DiskState.cpp:StateDiskFile::ReadLine", "daemon/remote/XmlRpc.cpp:LoadLogXmlCommand::GuardMessages"]}
{"id": "C115", "title": "Queue scripts get every event, one script at a time", "statement": "For every event of an entry (added, named, a file or the entry downloaded, marked, deleted, address fetched) each script which is assigned to the entry and asks for the event is started exactly once, unless it is dropped because the entry is gone, deleted or bad by then, or was downloaded completely in the meantime. Never more than one of these scripts runs, none waits while none runs, and if nothing else happens all that wait are run. Events of higher priority go first, and for downloaded files scripts are started no more often than EventInterval says.", "quantifier": "all sequences of events, of ends of scripts and of changes to entries, all scripts and parameters", "why_tests_cant": "which items wait, are dropped or go first depends on the interleaving of events with running scripts and with deletions of entries", "anchors": ["daemon/extension/QueueScript.cpp:QueueScriptCoordinator::EnqueueScript", "daemon/extension/QueueScript.cpp:QueueScriptCoordinator::CheckQueue", "daemon/extension/QueueScript.cpp:QueueScriptCoordinator::UsableScript"]}
{"id": "C116", "title": "The quick par2 verification says the truth about the files on disk", "statement": "A file which was downloaded completely is taken as intact, without being read, exactly if it has the CRC of the original; damage of up to four adjacent bytes is always noticed. A file of which articles are missing passes exactly if every range of blocks whose bytes were all downloaded has on disk the CRC it should have; only blocks covered by downloaded articles count as available, each at its place in the file. If the quick check does not pass, nothing of it remains and the file is verified completely.", "quantifier": "all files, block sizes, divisions into articles and sets of missing articles, all tables of blocks", "why_tests_cant": "CRCs of blocks are computed by combining those of articles at all possible positions of articles against blocks; boundaries which meet by chance are not covered by tests", "anchors": ["daemon/postprocess/ParChecker.cpp:ParChecker::VerifyDataFile", "daemon/postprocess/ParChecker.cpp:ParChecker::VerifySuccessDataFile", "daemon/postprocess/ParChecker.cpp:ParChecker::VerifyPartialDataFile", "daemon/postprocess/ParChecker.cpp:ParChecker::SmartCalcFileRangeCrc", "daemon/postprocess/ParChecker.cpp:ParChecker::DumbCalcFileRangeCrc"]}
{"id": "C117", "title": "The dialogue with a news server", "statement": "A connection counts as established only after a positive greeting and, if name and password are set, after the server has accepted them; the password is sent only when the server asks for it, authorisation ends after a bounded number of lines whatever the server answers, and without name and password none is sent. An article is taken as there, or as missing, only because of the server's answer to the request for this article. On servers which need it, the server has been told to change to a group of the file before. Each request is exactly one line.", "quantifier": "all sequences of connecting, disconnecting, cancelling, requests and changes of the group, all answers of the server and failures of the network, all message-ids and groups", "why_tests_cant": "servers may answer anything at any point; what a connection remembers must agree with the server over all sequences of failures and reuse", "anchors": ["daemon/nntp/NntpConnection.cpp:NntpConnection::Connect", "daemon/nntp/NntpConnection.cpp:NntpConnection::Request", "daemon/nntp/NntpConnection.cpp:NntpConnection::JoinGroup", "daemon/nntp/NntpConnection.cpp:NntpConnection::Disconnect", "daemon/nntp/ArticleDownloader.cpp:ArticleDownloader::Download", "daemon/nntp/ArticleDownloader.cpp:ArticleDownloader::CheckResponse"]}
{"id": "C118", "title": "Requests between the program and its own remote control", "statement": "The server executes a command received over the binary protocol only if the request carries the name and password of the configuration and only if the whole request with all data announced in it has arrived; a request cut off anywhere does nothing. Whatever the command-line client sends (pause, speed limit, lists, log, scan, history, files and addresses to add, edits of the queue, lines for the log) is executed by the server with exactly the arguments given by the user. No request, whoever sent it, makes the server read outside of its buffers.", "quantifier": "all byte sequences arriving at the server, all configurations, all arguments of the client", "why_tests_cant": "the space of byte sequences is unbounded; lengths and counts inside a request interact; the parts of client and server must agree for all arguments", "anchors": ["daemon/remote/BinRpc.cpp:BinRpcProcessor::Execute", "daemon/remote/BinRpc.cpp:BinRpcProcessor::Dispatch", "daemon/remote/BinRpc.cpp:DownloadBinCommand::Execute", "daemon/remote/BinRpc.cpp:EditQueueBinCommand::Execute", "daemon/remote/BinRpc.cpp:WriteLogBinCommand::Execute", "daemon/remote/RemoteClient.cpp:RemoteClient::InitMessageBase", "daemon/remote/RemoteClient.cpp:RemoteClient::RequestServerDownload", "daemon/remote/RemoteClient.cpp:RemoteClient::RequestServerEditQueue", "daemon/remote/MessageBase.h:SNzbRequestBase"]}
{"id": "C119", "title": "Answers to the remote control", "statement": "What the command-line client shows is what the server has: results of commands with their texts, the whole queue with all groups, parameters and files and the state of the program, jobs in post-processing, the history and the log, in the order of the server and with the right numbers, names, sizes and statuses. The server writes exactly as many bytes as it has reserved and announced; an answer which was cut off anywhere is reported as failure and never taken for a shorter list.", "quantifier": "all queues, jobs, histories and states of the program, all contents of names and texts, all contents of memory which is not set, all points where the connection may break", "why_tests_cant": "number and lengths of entries are unbounded, and the alignment of each entry depends on all entries before it", "anchors": ["daemon/remote/BinRpc.cpp:BinCommand::SendBoolResponse", "daemon/remote/BinRpc.cpp:ListBinCommand::Execute", "daemon/remote/BinRpc.cpp:PostQueueBinCommand::Execute", "daemon/remote/BinRpc.cpp:HistoryBinCommand::Execute", "daemon/remote/RemoteClient.cpp:RemoteClient::ReceiveBoolResponse", "daemon/remote/RemoteClient.cpp:RemoteClient::BuildFileList", "daemon/remote/RemoteClient.cpp:RemoteClient::RequestServerList", "daemon/remote/RemoteClient.cpp:RemoteClient::RequestPostQueue", "daemon/remote/RemoteClient.cpp:RemoteClient::RequestHistory", "daemon/remote/BinRpc.cpp:LogBinCommand::Execute", "daemon/remote/RemoteClient.cpp:RemoteClient::RequestServerLog"]}
{"id": "C120", "title": "Scripts get their settings and their answers take effect", "statement": "A script finds in its environment every parameter of the download, its own settings and every option, and nothing which was meant for scripts of another program instance. Every line it prints becomes one message of the kind it says, in order; command lines set the final directory, the directory, a parameter or the mark of the download exactly as written, and no other line changes the download. Exactly the post-processing scripts which are chosen for the download are executed, in order, up to one which asks for a par-check; the status of each follows from its exit code and the total status is failure if any has failed. The option ShellOverride chooses the program for the extension of the script.", "quantifier": "all outputs, exit codes, numbers and names of scripts, downloads, parameters, options and environments", "why_tests_cant": "the output is arbitrary data of a foreign program, cut into pieces by a buffer; names come from outside", "anchors": ["daemon/util/Script.cpp:ScriptController::Execute", "daemon/util/Script.cpp:ScriptController::ProcessOutput", "daemon/util/Script.cpp:ScriptController::PrepareArgs", "daemon/util/Script.cpp:ScriptController::SetEnvVarSpecial", "daemon/util/Script.cpp:EnvironmentStrings::InitFromCurrentProcess", "daemon/extension/NzbScript.cpp:NzbScriptController::PrepareEnvScript", "daemon/extension/PostScript.cpp:PostScriptController::Run", "daemon/extension/PostScript.cpp:PostScriptController::AnalyseExitCode", "daemon/extension/PostScript.cpp:PostScriptController::AddMessage", "daemon/queue/DownloadInfo.cpp:ScriptStatusList::CalcTotalStatus"]}
{"id": "C121", "title": "Renaming during the download finds the right names and loses no file", "statement": "While a download runs, the first article of every file tells the hash of its first 16 KiB and whether it is a par2-file, however the data arrives. When the first articles of all files are there, exactly one of the smallest par2-files of every set which has none yet is downloaded with priority; when these are complete they are read once. Every file gets the name of the source file with the same hash and no other file is renamed; par2-files get free names of their set when their names do not tell it. Every completed file is found under its new name with the same contents, and no other file is touched.", "quantifier": "all contents and pieces of articles, numbers, sizes, names and sets of files, orders of equal files, par2-files and contents of the directory", "why_tests_cant": "hashes, names in par2-files and the order of completion are arbitrary; equal beginnings and exchanged names are rare in tests", "anchors": ["daemon/queue/DirectRenamer.cpp:RenameContentAnalyzer::Append", "daemon/queue/DirectRenamer.cpp:DirectRenamer::ArticleDownloaded", "daemon/queue/DirectRenamer.cpp:DirectRenamer::CheckState", "daemon/queue/DirectRenamer.cpp:DirectRenamer::UnpausePars", "daemon/queue/DirectRenamer.cpp:DirectRenamer::RenameFiles", "daemon/queue/DirectRenamer.cpp:DirectRenamer::BuildNewParName", "daemon/queue/DirectRenamer.cpp:DirectParLoader::LoadParFile", "daemon/queue/QueueCoordinator.cpp:QueueCoordinator::DeleteFileInfo"]}
{"id": "C122", "title": "Unpacking during the download is correct for every schedule", "statement": "While a download runs its archives are unpacked. For every interleaving of the downloading threads, of the unpacking thread and of unrar, with files completing, articles failing, the download being deleted or moved, at any moment: success is shown only if unrar was run and each time ended with code 0 after its report that all is OK, the download is complete and nothing was stopped; every first volume is unpacked; unrar is told to continue only when the volume it asks for is there, and always then; nobody waits for a volume after the download is complete; the threads do not block each other; after a failure nothing is left of the unpacked files; post-processing is neither started too early nor kept waiting. The question of unrar, which has no end of line, is recognised and names the right volume.", "quantifier": "all sequences of steps of two threads and of unrar, all names, all outputs, exit codes and orders of events, all contents of the directories", "why_tests_cant": "depends on the interleaving of threads and of an external process; the windows for lost events are microseconds", "anchors": ["daemon/postprocess/DirectUnpack.cpp:DirectUnpack::Run", "daemon/postprocess/DirectUnpack.cpp:DirectUnpack::ExecuteUnrar", "daemon/postprocess/DirectUnpack.cpp:DirectUnpack::AddMessage", "daemon/postprocess/DirectUnpack.cpp:DirectUnpack::WaitNextVolume", "daemon/postprocess/DirectUnpack.cpp:DirectUnpack::FileDownloaded", "daemon/postprocess/DirectUnpack.cpp:DirectUnpack::NzbDownloaded", "daemon/postprocess/DirectUnpack.cpp:DirectUnpack::NzbDeleted", "daemon/postprocess/DirectUnpack.cpp:DirectUnpack::ReadLine", "daemon/postprocess/DirectUnpack.cpp:DirectUnpack::Stop", "daemon/postprocess/PrePostProcessor.cpp:PrePostProcessor::NzbDownloaded", "daemon/postprocess/Unpack.cpp:UnpackController::CheckArchiveFiles"]}
{"id": "C123", "title": "Success of unpacking is reported only if the unpackers have unpacked everything", "statement": "When post-processing unpacks a job, the job gets the status of success only if for each kind of archives in it one process of unrar or 7-Zip has returned 0, has printed that all is OK, has printed neither an error about a password nor about a damaged volume, and was not stopped, and the results were moved. The processes get the extraction command, the password and the directory of the job. If the job has no password then those of the password-file are tried, in the order of the file, each at most once, the search ends with the first right one, and if all are wrong all were tried. Lack of space is reported only if unrar has said so. After the user has stopped the job no other process is started and success is not reported.", "quantifier": "all jobs, names, passwords, password-files, command lines, outputs of the processes, exit codes and moments of stopping", "why_tests_cant": "what unpackers print and return and when a user stops a job is open; only a few combinations can be arranged in a test", "anchors": ["daemon/postprocess/Unpack.cpp:UnpackController::Run", "daemon/postprocess/Unpack.cpp:UnpackController::UnpackArchives", "daemon/postprocess/Unpack.cpp:UnpackController::ExecuteUnrar", "daemon/postprocess/Unpack.cpp:UnpackController::ExecuteSevenZip", "daemon/postprocess/Unpack.cpp:UnpackController::PrepareCmdParams", "daemon/postprocess/Unpack.cpp:UnpackController::ReadLine", "daemon/postprocess/Unpack.cpp:UnpackController::AddMessage", "daemon/postprocess/Unpack.cpp:UnpackController::Stop", "daemon/util/Script.cpp:ScriptController::Execute", "daemon/util/Script.cpp:ScriptController::Resume"]}
{"id": "C124", "title": "Deleting a directory deletes all that is in it and nothing outside", "statement": "When the program deletes the directory of a download (a failed unpack, a deleted or again downloaded history entry, clean-up) then the directory and all that is in it is gone, all that is outside is unchanged, and success is reported if and only if nothing had to stay; what the system refuses to remove stays together with the directories above it, and the rest goes. Where a directory is to be deleted only if it is empty, a directory with a name not beginning with a dot is not changed. The deletion ends.", "quantifier": "all file systems, with links and locked entries, all directories and depths", "why_tests_cant": "the trees which archives of strangers make, with links and long paths, are open, and the loss would be outside of what a test looks at", "anchors": ["daemon/util/FileSystem.cpp:FileSystem::DeleteDirectoryWithContent", "daemon/util/FileSystem.cpp:FileSystem::DeleteDirectory", "daemon/util/FileSystem.cpp:FileSystem::DirectoryExists", "daemon/util/FileSystem.cpp:FileSystem::DeleteFile", "daemon/util/FileSystem.cpp:FileSystem::RemoveDirectory", "daemon/util/FileSystem.cpp:DirBrowser"]}
{"id": "C125", "title": "Commands for history entries touch only the named entries and their files", "statement": "A command for history entries (delete, delete finally, download again, set name, category, parameter, dupe key, score, mode, backup) leaves all entries which are not named as they are and in their order, and brings only named entries to the queue. Deleting an entry deletes on disk its nzb-files (if so configured) and, only if the download failed or was deleted, its directory; files of successful downloads stay. Downloading again deletes the old directory and puts the download with reset statuses at the begin of the queue; if its source is not available nothing is changed. Commands for texts change this one text and nothing on disk. The result says whether the command could be carried out, and what was changed is saved.", "quantifier": "all histories, queues, lists of ids, commands and their texts, options and contents of the disk", "why_tests_cant": "which downloads share a directory, which ids are given and what is on disk when the command comes is open", "anchors": ["daemon/queue/HistoryCoordinator.cpp:HistoryCoordinator::EditList", "daemon/queue/HistoryCoordinator.cpp:HistoryCoordinator::HistoryDelete", "daemon/queue/HistoryCoordinator.cpp:HistoryCoordinator::HistoryHide", "daemon/queue/HistoryCoordinator.cpp:HistoryCoordinator::DeleteDiskFiles", "daemon/queue/HistoryCoordinator.cpp:HistoryCoordinator::HistoryRedownload", "daemon/queue/HistoryCoordinator.cpp:HistoryCoordinator::MoveToQueue", "daemon/queue/HistoryCoordinator.cpp:HistoryCoordinator::HistorySetParameter", "daemon/queue/HistoryCoordinator.cpp:HistoryCoordinator::HistorySetCategory", "daemon/queue/HistoryCoordinator.cpp:HistoryCoordinator::HistorySetName", "daemon/queue/HistoryCoordinator.cpp:HistoryCoordinator::HistorySetDupeParam", "daemon/queue/DownloadInfo.cpp:NzbInfo::BuildDestDirName"]}
{"id": "C126", "title": "After a restart queue and history are what was saved, and the cleanup deletes only leftovers", "statement": "When the program starts with a state directory in which everything was saved completely, all downloads of the queue and all history entries are there again in the same order, with the infos of every file and, where partial files are continued, with the progress of every file; an interrupted save is completed first. The start deletes from the state directory only files of downloads which are no longer in the queue or the history and progress which is not continued, and from the directory of temporary files only those of files which are no longer in the queue. A second start after it loads the same again. If something cannot be read, no other download is affected.", "quantifier": "all queues, histories, states of files, contents of both directories, orders in which they are listed, and all names of other files in them", "why_tests_cant": "what is in the directories after a crash, after an update or because other programs put files there is open; tests start with directories written by the test", "anchors": ["daemon/queue/DiskState.cpp:DiskState::LoadDownloadQueue", "daemon/queue/DiskState.cpp:DiskState::LoadHistory", "daemon/queue/DiskState.cpp:DiskState::LoadAllFileInfos", "daemon/queue/DiskState.cpp:DiskState::LoadAllFileStates", "daemon/queue/DiskState.cpp:DiskState::CleanupQueueDir", "daemon/queue/DiskState.cpp:DiskState::CleanupTempDir", "daemon/queue/DiskState.cpp:DiskState::SaveAllFileInfos", "daemon/queue/DiskState.cpp:StateFile::BeginRead", "daemon/queue/QueueCoordinator.cpp:QueueCoordinator::Load"]}
{"id": "C127", "title": "What is paused stays paused and what runs is not paused, until someone asks for it", "statement": "Downloads, post-processing and the scan of the incoming directory are paused and resumed by the command for it, by a task of the schedule for it, and - downloads only - paused when too little space is free while downloading; a scheduled resume ends all three pauses at the first check at or after its time and not before, unless a pause or resume command was given since. Nothing else starts or ends a pause. While downloads are paused or a quota is reached, only items with force priority are downloaded. Before all required directories are there, nothing is downloaded or post-processed. A task for servers changes exactly the servers it names.", "quantifier": "all sequences of commands, scheduler checks with any tasks, disk checks with any amount of free space, quota checks, post-processing stages and times", "why_tests_cant": "the flags are set from many places and read from many others; which of them decides depends on the history of commands, schedule and disk", "anchors": ["daemon/main/WorkState.h:WorkState", "daemon/main/Scheduler.cpp:Scheduler::ExecuteTask", "daemon/main/Scheduler.cpp:Scheduler::CheckScheduledResume", "daemon/main/Scheduler.cpp:Scheduler::EditServer", "daemon/main/DiskService.cpp:DiskService::CheckDiskSpace", "daemon/main/DiskService.cpp:DiskService::CheckRequiredDir", "daemon/remote/XmlRpc.cpp:PauseUnpauseXmlCommand::Execute", "daemon/remote/XmlRpc.cpp:ScheduleResumeXmlCommand::Execute", "daemon/postprocess/PrePostProcessor.cpp:PrePostProcessor::UpdatePauseState"]}
{"id": "C128", "title": "The speed limit holds in every second, and nobody waits for ever because of it", "statement": "While a speed limit is set, in no second more bytes of articles arrive than the limit plus one piece of 4096 bytes for each connection, and accordingly in any number of seconds, whatever the connections receive and in whatever order they run. Without a limit nobody waits, and who waits may go on as soon as the bytes of the last half minute are within the limit.", "quantifier": "all numbers of connections, limits, interleavings of their checks and reads, and sizes of what is received", "why_tests_cant": "depends on the interleaving of many threads and on the clock; a test sees one of them and cannot tell rare excess from noise", "anchors": ["daemon/nntp/ArticleDownloader.cpp:ArticleDownloader::Download", "daemon/nntp/StatMeter.cpp:StatMeter::AddSpeedReading", "daemon/nntp/StatMeter.cpp:StatMeter::CalcCurrentDownloadSpeed", "daemon/nntp/StatMeter.cpp:StatMeter::CalcMomentaryDownloadSpeed"]}
{"id": "C129", "title": "Up time and download time are the real ones", "statement": "The program tells the time since it was started and the time during which downloads were running, however often they began and ended, also if the clock of the computer is changed.", "quantifier": "all sequences of downloads beginning and ending, checks and changes of the clock", "why_tests_cant": "needs long histories and changes of the clock", "anchors": ["daemon/nntp/StatMeter.cpp:StatMeter::IntervalCheck", "daemon/nntp/StatMeter.cpp:StatMeter::EnterLeaveStandBy", "daemon/nntp/StatMeter.cpp:StatMeter::CalcTotalStat"]}
{"id": "C130", "title": "Every background service works once per interval", "statement": "Schedule, check of the disk, scan of the incoming directory and removal of old history entries each work exactly once per interval of theirs, whatever the intervals of the others are and however often the thread which runs them is woken up; the schedule works at full minutes. A service which sleeps does not work. If the clock is set back, a service works again within two intervals.", "quantifier": "all services, intervals, times and wake-ups", "why_tests_cant": "depends on the interplay of intervals and wake-ups over time", "anchors": ["daemon/util/Service.cpp:ServiceCoordinator::Run", "daemon/main/Scheduler.cpp:Scheduler::ScheduleNextWork"]}
{"id": "C131", "title": "The status shown for a finished download tells what happened to it", "statement": "Every download in the history has a status which begins with one of SUCCESS, FAILURE, WARNING and DELETED and is never an internal error. SUCCESS is shown exactly if the user marked the download as good, or nothing was deleted or failed, nothing is left to do, no script failed and all data is there or was repaired or unpacked; the marks of the user come first; the second part names the true reason. The scripts see the same result without their own, a failed script turns a success into a warning. The same result decides about duplicates, about the record which is left when the entry is hidden, and about what the filters of feeds learn.", "quantifier": "all combinations of marks, deletion, results of par-check, unpacking, moving and scripts, sizes and failed sizes; all queues and histories", "why_tests_cant": "tens of thousands of combinations with sizes and histories on top", "anchors": ["daemon/queue/DownloadInfo.cpp:NzbInfo::MakeTextStatus", "daemon/queue/DownloadInfo.cpp:NzbInfo::IsDupeSuccess", "daemon/queue/DownloadInfo.cpp:ScriptStatusList::CalcTotalStatus", "daemon/extension/PostScript.cpp:PostScriptController::PrepareParams", "daemon/queue/DupeCoordinator.cpp:DupeCoordinator::GetDupeStatus", "daemon/queue/HistoryCoordinator.cpp:HistoryCoordinator::HistoryHide", "daemon/remote/XmlRpc.cpp:HistoryXmlCommand::DetectStatus"]}
{"id": "C132", "title": "The command line does what the usage says", "statement": "A command given on the command line asks the server for exactly what the usage describes: the edit commands act on the kind of things which was named (files, downloads, post-jobs, history) with the action, text and offset given, on exactly the ids of the list (single ids, ranges upwards and downwards, in one word or several) or on the names given; a list with anything else is refused as a whole. -A sends the file or address behind its options with all of them; commands for pausing, lists and scanning mean what their words say, in upper or lower case; a missing file and surplus words are refused; -s -P starts paused. The place of the switches for settings does not matter.", "quantifier": "all words, all lists of ids and ranges, all sequences of options, all settings before the command", "why_tests_cant": "the words are arbitrary texts, the lists arbitrarily long", "anchors": ["daemon/main/CommandLineParser.cpp:CommandLineParser::InitCommandLine", "daemon/main/CommandLineParser.cpp:CommandLineParser::InitFileArg", "daemon/main/CommandLineParser.cpp:CommandLineParser::ParseFileIdList", "daemon/main/CommandLineParser.cpp:CommandLineParser::PrintUsage"]}
{"id": "C133", "title": "A repair recreates exactly the missing data", "statement": "The blocks which a par2 repair computes from the blocks still there and from recovery blocks are, bit for bit, the missing blocks: for every content, every set of missing blocks, every choice of recovery blocks and every division of the work into portions. With at least as many recovery blocks as missing blocks the repair can be computed; with fewer it is refused.", "quantifier": "all sizes of blocks, all contents, all sets of missing blocks (up to 32768 blocks), all recovery blocks and exponents", "why_tests_cant": "the content, the number of blocks and the sets of missing blocks are unbounded; the repair is linear algebra over a field of 65536 elements", "anchors": ["lib/par2/galois.h:Galois", "lib/par2/galois.h:GaloisTable", "lib/par2/reedsolomon.cpp:ReedSolomon::SetInput", "lib/par2/reedsolomon.h:ReedSolomon::Compute", "lib/par2/reedsolomon.h:ReedSolomon::GaussElim", "lib/par2/reedsolomon.cpp:ReedSolomon::Process", "lib/par2/par2repairer.cpp:Par2Repairer::ComputeRSmatrix", "lib/par2/par2repairer.cpp:Par2Repairer::ProcessData"]}
{"id": "C134", "title": "A repair puts every file in place or destroys nothing", "statement": "After a par2 repair which is reported as successful every file of the set is there under its name with the right content. A repair which fails, at whatever point, loses nothing: every file is still there with its content, under its old name, under its name with a number behind it, or under the name it should have. Files which have nothing to do with the set are never touched. Which files a success deletes is known: those in which blocks were found and which are not files of the set.", "quantifier": "all sets of files, all states of the disk (damaged, missing, misnamed files), all results of renaming, creating, writing and deleting", "why_tests_cant": "renaming, creating and deleting may fail at any file of any set; all combinations of damaged, missing and misnamed files matter", "anchors": ["lib/par2/par2repairer.cpp:Par2Repairer::Process", "lib/par2/par2repairer.cpp:Par2Repairer::RenameTargetFiles", "lib/par2/par2repairer.cpp:Par2Repairer::CreateTargetFiles", "lib/par2/par2repairer.cpp:Par2Repairer::VerifyTargetFiles", "lib/par2/par2repairer.cpp:Par2Repairer::DeleteIncompleteTargetFiles", "lib/par2/diskfile.cpp:DiskFile::Rename", "daemon/postprocess/ParChecker.cpp:ParChecker::SaveSourceList", "daemon/postprocess/ParChecker.cpp:ParChecker::DeleteLeftovers"]}
{"id": "C135", "title": "A par check ends with the right result", "statement": "libpar2 says that nothing is to do exactly if every file of the set is there, complete and under its name, and otherwise that a repair is possible exactly if there are at least as many recovery blocks as blocks missing. A par check ends as not needed only if nothing is damaged or missing, as repaired only after a successful repair, and changes files only by a repair which is needed, possible and not switched off; more par2 files are fetched, and other downloads searched, only if the blocks do not suffice. The files of a set lie in the directory of the par2 file whatever names it contains.", "quantifier": "all sets of files and blocks found, all results of each step, all points of cancelling, all names in par2 files", "why_tests_cant": "the result depends on all combinations of files, blocks, options and the moment of cancelling; tests check a few sets", "anchors": ["lib/par2/par2repairer.cpp:Par2Repairer::UpdateVerificationResults", "lib/par2/par2repairer.cpp:Par2Repairer::CheckVerificationResults", "lib/par2/par2repairersourcefile.cpp:Par2RepairerSourceFile::ComputeTargetFileName", "daemon/postprocess/ParChecker.cpp:ParChecker::RunParCheck", "daemon/postprocess/ParChecker.cpp:ParChecker::signal_done", "daemon/postprocess/ParChecker.cpp:ParChecker::CheckEmptyFiles", "daemon/postprocess/ParChecker.cpp:ParChecker::VerifyDataFile"]}
{"id": "C136", "title": "Waiting for more par2 files neither loses files nor waits in vain", "statement": "While a par check waits for more par2 files, every file which is finished meanwhile is used, in order, whatever the threads do in between. It gives up only if all finished files were tried, blocks are still missing, and the queue had neither enough blocks nor a par2 file being downloaded when it asked. It says that a repair is possible only with enough blocks. It waits only while an unpaused file is in the queue, goes on when one is finished or deleted, never runs in circles, and ends soon after it is cancelled.", "quantifier": "all queues of files, all sequences of steps of the threads: files finished, deleted, paused, resumed, signals, cancelling", "why_tests_cant": "lost files and lost wake-ups appear only in rare orders of the steps of several threads", "anchors": ["daemon/postprocess/ParChecker.cpp:ParChecker::ProcessMorePars", "daemon/postprocess/ParChecker.cpp:ParChecker::LoadMainParBak", "daemon/postprocess/ParChecker.cpp:ParChecker::LoadMorePars", "daemon/postprocess/ParChecker.cpp:ParChecker::AddParFile", "daemon/postprocess/ParChecker.cpp:ParChecker::QueueChanged", "daemon/postprocess/Repair.cpp:RepairController::AddPar", "daemon/postprocess/Repair.cpp:RepairController::RequestMorePars"]}
{"id": "C137", "title": "A repair by several threads computes the same data as by one", "statement": "When missing blocks are computed by several threads, the result is the same as without threads in every order in which the threads run: each missing block gets the part of each input block exactly once, computed while this input block is in the buffer. Two threads never write the same block at the same time. The function returns only when no thread works any more, also when the repair is cancelled, so that the buffers can be reused and freed. It never gets stuck, and fails only if it was cancelled.", "quantifier": "all numbers of threads, missing blocks and input blocks, all orders of the steps of all threads, a cancel at any moment", "why_tests_cant": "a race between the threads destroys data only in rare orders of their steps, and the result is not verified afterwards in quick mode", "anchors": ["daemon/postprocess/ParChecker.cpp:Repairer::RepairData", "daemon/postprocess/ParChecker.cpp:Repairer::RepairBlock", "daemon/postprocess/ParChecker.cpp:Repairer::BeginRepair", "daemon/postprocess/ParChecker.cpp:RepairThread::Run", "daemon/postprocess/ParChecker.cpp:RepairThread::RepairBlock", "lib/par2/par2repairer.cpp:Par2Repairer::ProcessData"]}
{"id": "C138", "title": "Which duplicates are searched for missing blocks", "statement": "With ParScan=dupe exactly the directories of those downloads in the history are searched which are duplicates of the download (by dupe key or name), where neither has the mode force, and whose main file has the same size and kind of storage as that of the download; if the size of the own main file does not fit to the download, all duplicates. The main file is the largest one. Reading an archive is limited to a minute. The blocks used are booked without loss between the downloads. A file is searched as a fragment only if its name says so.", "quantifier": "all histories, directories, contents of archives, clocks and names of files", "why_tests_cant": "the choice depends on the order of files in archives and directories and on the clock", "anchors": ["daemon/queue/DupeCoordinator.cpp:DupeCoordinator::ListHistoryDupes", "daemon/postprocess/Repair.cpp:RepairController::PostParChecker::RequestDupeSources", "daemon/postprocess/Repair.cpp:RepairController::PostParChecker::StatDupeSources", "daemon/postprocess/DupeMatcher.cpp:DupeMatcher::FindLargestFile", "daemon/postprocess/DupeMatcher.cpp:RarLister::AddMessage", "daemon/postprocess/DupeMatcher.cpp:RarLister::FindLargestFile", "daemon/postprocess/ParChecker.cpp:ParChecker::MaybeSplittedFragement"]}
{"id": "C139", "title": "Deleting a download from the queue", "statement": "A download deleted from the queue leaves it as soon as none of its articles is being downloaded, and nothing of it is started any more, in whatever order the running downloads end and whatever other commands come. It then is in the history with the status of the command, or nowhere if the command is final or no history is kept. Unless it is parked, all its completed and temporary files are deleted from its directory; parking deletes nothing and keeps every file for later. Nothing else in the directory is deleted, and the nzb-file only if this is wanted and there is no entry in the history.", "quantifier": "all downloads, commands, contents of the directory and orders in which running downloads of articles end, files are written, duplicates are found and the health check acts", "why_tests_cant": "the end depends on the order of events in several threads and on all files of the download and its directory", "anchors": ["daemon/queue/QueueEditor.cpp:QueueEditor::EditGroup", "daemon/queue/QueueEditor.cpp:QueueEditor::DeleteEntry", "daemon/queue/QueueCoordinator.cpp:QueueCoordinator::ArticleCompleted", "daemon/queue/QueueCoordinator.cpp:QueueCoordinator::DeleteDownloader", "daemon/queue/QueueCoordinator.cpp:QueueCoordinator::DeleteFileInfo", "daemon/queue/QueueCoordinator.cpp:QueueCoordinator::DeleteQueueEntry", "daemon/queue/QueueCoordinator.cpp:QueueCoordinator::CheckHealth", "daemon/postprocess/PrePostProcessor.cpp:PrePostProcessor::DownloadQueueUpdate", "daemon/postprocess/PrePostProcessor.cpp:PrePostProcessor::NzbDeleted", "daemon/postprocess/PrePostProcessor.cpp:PrePostProcessor::NzbCompleted", "daemon/postprocess/PrePostProcessor.cpp:PrePostProcessor::DeleteCleanup", "daemon/queue/HistoryCoordinator.cpp:HistoryCoordinator::AddToHistory", "daemon/queue/HistoryCoordinator.cpp:HistoryCoordinator::DeleteDiskFiles"]}
{"id": "C140", "title": "Creating directories", "statement": "When a directory is needed (the configured directories, the directory of a download, the target of moved files), exactly the missing directories on the way to it are created, also through symbolic links, with doubled slashes and for relative paths; if it succeeds the path leads to a directory. Nothing which exists is changed, a file in the way prevents it, and a second attempt changes nothing.", "quantifier": "all paths, current directories, file systems with symbolic links and rights to create directories", "why_tests_cant": "the result depends on the text of the path and on the whole file system; tests use a few paths below a temporary directory", "anchors": ["daemon/util/FileSystem.cpp:FileSystem::ForceDirectories"]}
{"id": "C141", "title": "Log files per day", "statement": "With a new log file each day every message is written into the file of its day, named after the option with the date. When a new file is begun exactly those log files are deleted whose date is at least the configured number of days ago; the file of today, newer log files and all other files in the directory remain.", "quantifier": "all names of log files, numbers of days, contents of the directory and sequences of times", "why_tests_cant": "depends on the calendar, on all names in the directory and on the times of all messages", "anchors": ["daemon/util/Log.cpp:Log::RotateLog", "daemon/util/Log.cpp:Log::Filelog", "daemon/util/Util.cpp:WildMask::Match", "daemon/util/Util.cpp:Util::Timegm"]}
{"id": "C142", "title": "Conditions of feed rules", "statement": "A condition of a feed rule is met by exactly the items it describes: comparisons of the size with units of bytes, of the age with minutes, hours or days (days by default), of season, episode, priority and the other numbers of the item, and texts for the title or a named field or attribute; with a minus exactly by the others. Names of fields and units may be written in any case. A condition on an unknown field or with an unknown unit makes the rule invalid.", "quantifier": "all items, numbers, units, comparisons, texts, signs and spellings", "why_tests_cant": "infinitely many numbers and texts, and every combination of field, comparison, unit and spelling", "anchors": ["daemon/feed/FeedFilter.cpp:FeedFilter::Term::Compile", "daemon/feed/FeedFilter.cpp:FeedFilter::Term::MatchValue", "daemon/feed/FeedFilter.cpp:FeedFilter::Term::GetFieldData", "daemon/feed/FeedFilter.cpp:FeedFilter::Term::ParseSizeParam", "daemon/feed/FeedFilter.cpp:FeedFilter::Term::ParseAgeParam"]}
{"id": "C143", "title": "Reading of feed rules", "statement": "A feed filter is read as it is written: the rules between percent signs, for each rule its command, its options in any order, spelling and case with the later of two replacing the earlier, and its conditions. A rule with a wrong value, an unknown option or a wrong command is not accepted as another rule. Each reference in the value of an option is replaced by the season, the episode or the text of the wildcard it names.", "quantifier": "all lists of options, values, blanks, spellings and conditions", "why_tests_cant": "infinitely many rules; every combination of options and blanks", "anchors": ["daemon/feed/FeedFilter.cpp:FeedFilter::Compile", "daemon/feed/FeedFilter.cpp:FeedFilter::Rule::Compile", "daemon/feed/FeedFilter.cpp:FeedFilter::Rule::CompileCommand", "daemon/feed/FeedFilter.cpp:FeedFilter::Rule::CompileOptions", "daemon/feed/FeedFilter.cpp:FeedFilter::Rule::ExpandRefValues", "daemon/feed/FeedFilter.cpp:FeedFilter::Rule::GetRefValue"]}
{"id": "C144", "title": "Password of an nzb-file", "statement": "If an nzb-file contains a password near its beginning, the password used for unpacking is exactly the one written there, including tabs and other characters a parser would normalise and with references resolved, whatever follows in the file. Otherwise the password found by the XML parser is kept.", "quantifier": "all contents of nzb-files, passwords and ways to write them in XML", "why_tests_cant": "depends on every byte before, in and behind the element, on the length of the file and on all ways of escaping", "anchors": ["daemon/queue/NzbFile.cpp:NzbFile::ReadPassword", "daemon/util/Util.cpp:WebUtil::XmlDecode"]}
{"id": "C145", "title": "Items of a feed", "statement": "From a feed exactly the items of the document are read, in their order, and each has the title, file name, URL, size, category, description, time, identifiers, season, episode and attributes which its elements give, in whatever order they stand; nothing of the channel or of another item gets into it, and no feed can end the program.", "quantifier": "all feeds: all numbers of items, orders of elements and texts", "why_tests_cant": "infinitely many documents; every order and repetition of elements; every way in which the parser may split texts", "anchors": ["daemon/feed/FeedFile.cpp:FeedFile::Parse_StartElement", "daemon/feed/FeedFile.cpp:FeedFile::Parse_EndElement", "daemon/feed/FeedFile.cpp:FeedFile::SAX_characters", "daemon/feed/FeedFile.cpp:FeedFile::ParseSubject", "daemon/feed/FeedInfo.cpp:FeedItemInfo::ParsePrefixedInt"]}
{"id": "C146", "title": "Season and episode in titles of feeds", "statement": "If a feed doesn't give season and episode of an item, they are taken from its title, in whatever of the usual notations they are written there (S02E05, s2e5, 2x05, double episodes) and wherever in the title they stand; the same episode in different notations gets the same season and episode, and no title can end the program.", "quantifier": "all titles: all texts around, notations and numbers", "why_tests_cant": "infinitely many titles; every notation at every position", "anchors": ["daemon/feed/FeedInfo.cpp:FeedItemInfo::ParseSeasonEpisode", "daemon/util/Util.cpp:RegEx::Match", "daemon/util/Util.cpp:Util::ReduceStr"]}
{"id": "C147", "title": "The article cache is written to disk", "statement": "Every article which was completed into the article cache gets to disk, exactly once, whatever downloads run and whenever the cache is written; files which are no longer being downloaded don't keep articles in the cache, a full cache is written at once, and when the program is stopped it ends only when every article is written, and then does end.", "quantifier": "all queues, cache contents, orders of downloads and passes of the writing thread", "why_tests_cant": "every interleaving of downloads and writing; every content of the cache at the time of the stop", "anchors": ["daemon/nntp/ArticleWriter.cpp:ArticleCache::Run", "daemon/nntp/ArticleWriter.cpp:ArticleCache::CheckFlush", "daemon/nntp/ArticleWriter.cpp:ArticleWriter::FlushCache", "daemon/nntp/ArticleWriter.cpp:ArticleWriter::Finish"]}
{"id": "C148", "title": "The par-check is told the truth about downloaded files", "statement": "Of each downloaded file the par-check is told what is known of this very file from its download: success or failure with its checksum, or which of its parts were downloaded; of a file which was not downloaded, or whose state can't be read, nothing is told, and after post-processing was started again only success is told.", "quantifier": "all lists of completed files, saved states and names", "why_tests_cant": "every list of files with every combination of states and every state of the disk", "anchors": ["daemon/postprocess/Repair.cpp:RepairController::PostParChecker::FindFileCrc", "daemon/postprocess/ParChecker.h:ParChecker::EFileStatus"]}
