{
 "claims": [
  {
   "property": "C01",
   "status": "proved",
   "theorems": [
    "Verif.YEnc.decode_total",
    "Verif.YEnc.decode_chunk_independent",
    "Verif.YEnc.decode_cutting_irrelevant",
    "Verif.YEnc.decode_in_place_safe",
    "Verif.YEnc.decode_consumes"
   ],
   "note": "decode_scalar (the portable decoder) modelled with explicit out-of-bounds outcome; SIMD variants not modelled."
  },
  {
   "property": "C02",
   "status": "proved",
   "theorems": [
    "Verif.YEnc.yenc_roundtrip",
    "Verif.YEnc.yenc_lines"
   ],
   "note": "Body encoding of YEncoder::WriteSegment; header/trailer lines are the `tail`."
  },
  {
   "property": "C03",
   "status": "proved",
   "theorems": [
    "Verif.Crc.crc_is_crc32"
   ],
   "note": "Slicing-by-4 implementation; PCLMUL/ACLE variants not modelled."
  },
  {
   "property": "C04",
   "status": "proved",
   "theorems": [
    "Verif.Crc.crc_combine",
    "Verif.Crc.crc_of_segments"
   ],
   "note": ""
  },
  {
   "property": "C05",
   "status": "proved",
   "theorems": [
    "Verif.Decoder.accepted_article",
    "Verif.Decoder.accepted_but_incomplete",
    "Verif.Crc.crc_burst",
    "Verif.Crc.crc_append_inj"
   ],
   "note": "Over all buffer sequences. The second theorem shows that the delivered bytes may be fewer than the checked ones."
  },
  {
   "property": "C06",
   "status": "partial",
   "theorems": [
    "Verif.Decoder.reused_decoder_partial",
    "Verif.Decoder.reused_decoder_differs"
   ],
   "note": "Refuted as stated (Clear keeps the format); proved for articles starting with =ybegin when the earlier articles were not uuencoded."
  },
  {
   "property": "C07",
   "status": "partial",
   "theorems": [
    "Verif.Decoder.raw_eof_sound",
    "Verif.Decoder.raw_eof_complete_partial",
    "Verif.Decoder.raw_eof_depends_on_cutting",
    "Verif.Decoder.raw_eof_hidden_by_nul"
   ],
   "note": "Refuted as stated; soundness proved for all cuttings, completeness for buffers of at least 4 bytes without NUL."
  },
  {
   "property": "C08",
   "status": "proved",
   "theorems": [
    "Verif.Conn.readLine_spec",
    "Verif.Conn.readLines_spec",
    "Verif.Conn.readLines_delivery_irrelevant",
    "Verif.Conn.recv_spec",
    "Verif.Conn.nextBuffer_spec"
   ],
   "note": "Plain socket; TLS not modelled."
  },
  {
   "property": "C09",
   "status": "proved",
   "theorems": [
    "Verif.Pool.connection_exclusive",
    "Verif.Pool.max_connections",
    "Verif.Pool.pool_never_fails"
   ],
   "note": "Every method is atomic (mutex held throughout)."
  },
  {
   "property": "C10",
   "status": "proved",
   "theorems": [
    "Verif.Pool.granted_connection_allowed",
    "Verif.Pool.request_served_if_counter",
    "Verif.Pool.request_served"
   ],
   "note": "A blocked server is used only through a connection that is still open."
  },
  {
   "property": "C100",
   "status": "partial",
   "theorems": [
    "Verif.OptValue.enum_known",
    "Verif.OptValue.enum_unknown",
    "Verif.OptValue.enum_no_default",
    "Verif.OptValue.tables_proper",
    "Verif.OptValue.overrun_tables_proper",
    "Verif.OptValue.bool_words",
    "Verif.OptValue.option_words",
    "Verif.OptValue.history_spec",
    "Verif.OptValue.int_number",
    "Verif.OptValue.int_empty",
    "Verif.OptValue.int_invalid",
    "Verif.OptValue.int_dec",
    "Verif.OptValue.timeCorrection_spec",
    "Verif.OptValue.rate_spec",
    "Verif.OptValue.parCheck_overrun",
    "Verif.OptValue.fileNaming_overrun",
    "Verif.OptValue.invalid_bool_of_section",
    "Verif.OptValue.int_wraps"
   ],
   "note": "Proved for every option except ParCheck and FileNaming with a value which is not in the list, where the program reads behind its tables (refuted), and for numbers in the range of int; larger numbers are taken modulo 2^32 without an error (refuted)."
  },
  {
   "property": "C101",
   "status": "partial",
   "theorems": [
    "Verif.TaskDef.task_complete",
    "Verif.TaskDef.command_words",
    "Verif.TaskDef.task_definition",
    "Verif.TaskDef.task_due",
    "Verif.TaskDef.task_sane",
    "Verif.TaskDef.task_incomplete",
    "Verif.TaskDef.bad_days",
    "Verif.TaskDef.sections_spec",
    "Verif.TaskDef.tasks_spec",
    "Verif.TaskDef.param_spec",
    "Verif.TaskDef.no_task_reported",
    "Verif.TaskDef.tasks_end",
    "Verif.TaskDef.time_clock",
    "Verif.TaskDef.time_every_hour",
    "Verif.TaskDef.time_startup",
    "Verif.TaskDef.time_too_large",
    "Verif.TaskDef.time_bad_text",
    "Verif.TaskDef.time_every_minute",
    "Verif.TaskDef.time_range",
    "Verif.TaskDef.weekDays_list",
    "Verif.TaskDef.weekDays_blanks",
    "Verif.TaskDef.weekDays_bad_text",
    "Verif.TaskDef.weekDays_bad_range",
    "Verif.TaskDef.weekDays_accepted",
    "Verif.TaskDef.time_garbage",
    "Verif.TaskDef.time_missing_minutes",
    "Verif.TaskDef.earlier_times_kept",
    "Verif.TaskDef.unknown_command_pauses",
    "Verif.TaskDef.bad_rate_null"
   ],
   "note": "Proved for definitions as the manual describes them and for the sanity of every task which is added. Refuted: that every invalid definition is reported and adds nothing (garbage in a time, earlier times of a list, unknown command)."
  },
  {
   "property": "C102",
   "status": "partial",
   "theorems": [
    "Verif.CmdLine.quoted_arguments",
    "Verif.CmdLine.plain_arguments",
    "Verif.CmdLine.arguments_bounded",
    "Verif.CmdLine.arguments_of_text",
    "Verif.CmdLine.long_argument_cut",
    "Verif.CmdLine.empty_argument_lost"
   ],
   "note": "Proved for arguments which are not empty and have at most 1023 bytes; refuted for the others."
  },
  {
   "property": "C103",
   "status": "partial",
   "theorems": [
    "Verif.Section.server_as_written",
    "Verif.Section.server_incomplete",
    "Verif.Section.feed_as_written",
    "Verif.Section.feed_incomplete",
    "Verif.Section.category_as_written",
    "Verif.Section.category_incomplete",
    "Verif.Section.unknown_word_reported",
    "Verif.Section.sections_read",
    "Verif.Section.findCategory_spec",
    "Verif.Section.dirOf_eq",
    "Verif.Section.ipVersion_is_gap",
    "Verif.Section.bad_number_unnoticed",
    "Verif.Section.checkDir_root",
    "Verif.Section.checkDir_colon"
   ],
   "note": "Proved for values as the manual describes them. Refuted: that a section with any option counts (IpVersion), that invalid numbers are reported, and the directory for the root and for names with a colon."
  },
  {
   "property": "C104",
   "status": "partial",
   "theorems": [
    "Verif.PpParam.new_download",
    "Verif.PpParam.category_changed",
    "Verif.PpParam.category_in_post",
    "Verif.PpParam.category_of_scan_script",
    "Verif.PpParam.command_effect",
    "Verif.PpParam.other_messages",
    "Verif.PpParam.uniq_messages",
    "Verif.PpParam.uniq_set",
    "Verif.PpParam.uniq_init",
    "Verif.PpParam.find_set",
    "Verif.PpParam.find_clear",
    "Verif.PpParam.inForce_iff",
    "Verif.PpParam.param_of_script",
    "Verif.PpParam.scriptList_spec",
    "Verif.PpParam.scan_scripts",
    "Verif.PpParam.unpack_not_updated",
    "Verif.PpParam.category_scan_scripts_lost"
   ],
   "note": "Proved as stated, except that a scan-script which sets the category does not change whether to unpack (refuted) and that scan-scripts of a category alone are not run (refuted)."
  },
  {
   "property": "C105",
   "status": "partial",
   "theorems": [
    "Verif.WebUrl.parse_spec",
    "Verif.WebUrl.target_spec",
    "Verif.WebUrl.request_spec",
    "Verif.WebUrl.redirect_absolute",
    "Verif.WebUrl.redirect_path",
    "Verif.WebUrl.redirect_relative",
    "Verif.WebUrl.filename_safe",
    "Verif.WebUrl.filename_quoted",
    "Verif.WebUrl.filename_plain",
    "Verif.WebUrl.credentials_not_sent",
    "Verif.WebUrl.long_resource_not_ended",
    "Verif.WebUrl.redirect_with_address_in_query",
    "Verif.WebUrl.empty_filename_reads_before",
    "Verif.WebUrl.extended_filename_wrong"
   ],
   "note": "Proved for paths shorter than 1019 bytes and non-empty names; refuted: credentials are not sent, long paths give a broken request, addresses in the query of a redirection, empty and extended file names."
  },
  {
   "property": "C106",
   "status": "partial",
   "theorems": [
    "Verif.WebFetch.complete_document",
    "Verif.WebFetch.truncated_document",
    "Verif.WebFetch.finished_document",
    "Verif.WebFetch.compressed_document",
    "Verif.WebFetch.document_name",
    "Verif.WebFetch.finished_only",
    "Verif.WebFetch.unreachable",
    "Verif.WebFetch.redirected",
    "Verif.WebFetch.refused",
    "Verif.WebFetch.follow_count",
    "Verif.WebFetch.follow_reaches",
    "Verif.WebFetch.follow_endless",
    "Verif.WebFetch.follow_single",
    "Verif.WebFetch.run_file",
    "Verif.WebFetch.run_turns",
    "Verif.WebFetch.over_exists",
    "Verif.WebFetch.retries_spec",
    "Verif.WebFetch.stopped_at_once",
    "Verif.WebFetch.empty_document_fails",
    "Verif.WebFetch.redirection_page_taken",
    "Verif.WebFetch.unannounced_part_taken",
    "Verif.WebFetch.truncated_gzip_taken",
    "Verif.WebFetch.unsent_request_undefined",
    "Verif.WebFetch.complete_but_repeated"
   ],
   "note": "Proved as stated for replies which announce their length; refuted without a length, for redirections without an address, for empty documents, for requests which cannot be sent, and when paused after the end. Documents below 2 GB."
  },
  {
   "property": "C107",
   "status": "partial",
   "theorems": [
    "Verif.SaveConf.save_spec",
    "Verif.SaveConf.saved_options",
    "Verif.SaveConf.saved_exactly",
    "Verif.SaveConf.comments_kept",
    "Verif.SaveConf.save_again",
    "Verif.SaveConf.load_file",
    "Verif.SaveConf.old_scripts",
    "Verif.SaveConf.all_old_scripts",
    "Verif.SaveConf.extensions_added",
    "Verif.SaveConf.nothing_old",
    "Verif.SaveConf.swallowed",
    "Verif.SaveConf.injected",
    "Verif.SaveConf.empty_never_read",
    "Verif.SaveConf.interrupted"
   ],
   "note": "Proved for different names without `=`, values on one line without blanks at the end, and files which do not end in an unended comment; refuted for unended comments, line breaks in values, empty files and interruptions. The file can be opened, read and written."
  },
  {
   "property": "C108",
   "status": "partial",
   "theorems": [
    "Verif.AddNzb.isDupe_iff",
    "Verif.AddNzb.kept_sublist",
    "Verif.AddNzb.others_kept",
    "Verif.AddNzb.bigger_kept",
    "Verif.AddNzb.twice_split",
    "Verif.AddNzb.no_name_lost",
    "Verif.AddNzb.counters_kept",
    "Verif.AddNzb.added_direct",
    "Verif.AddNzb.added_from_url",
    "Verif.AddNzb.url_gone",
    "Verif.AddNzb.refused",
    "Verif.AddNzb.freed_memory"
   ],
   "note": "All but the last sentence is proved; that freed memory is not used is refuted, with the exact condition. The result of the duplicate check is a parameter (model Dupe)."
  },
  {
   "property": "C109",
   "status": "partial",
   "theorems": [
    "Verif.MoveDone.files_follow",
    "Verif.MoveDone.nothing_lost",
    "Verif.MoveDone.refused",
    "Verif.MoveDone.url_renamed",
    "Verif.MoveDone.inter_unique",
    "Verif.MoveDone.dest_spec",
    "Verif.MoveDone.record_wrong",
    "Verif.MoveDone.failed_is_success",
    "Verif.MoveDone.orphaned",
    "Verif.MoveDone.pending_ignored"
   ],
   "note": "Proved for every answer of the operating system as far as nothing is lost or overwritten, and completely if the new directory has no files of the same names and moves work; refuted otherwise. Neither directory is inside of the other one."
  },
  {
   "property": "C11",
   "status": "proved",
   "theorems": [
    "Verif.Pool.levels_normalised"
   ],
   "note": ""
  },
  {
   "property": "C110",
   "status": "partial",
   "theorems": [
    "Verif.RpcParam.parameter_read",
    "Verif.RpcParam.text_no_number",
    "Verif.RpcParam.nothing_read",
    "Verif.RpcParam.edit_received",
    "Verif.RpcParam.edit_received_offset",
    "Verif.RpcParam.config_received",
    "Verif.RpcParam.append_received_partial",
    "Verif.RpcParam.servers_received",
    "Verif.RpcParam.rate_received",
    "Verif.RpcParam.request_read",
    "Verif.RpcParam.request_none",
    "Verif.RpcParam.xml_text",
    "Verif.RpcParam.params_not_decoded",
    "Verif.RpcParam.id_becomes_parameter",
    "Verif.RpcParam.id_refuses",
    "Verif.RpcParam.blank_truncates",
    "Verif.RpcParam.link_args_lost",
    "Verif.RpcParam.untyped_refused",
    "Verif.RpcParam.rate_wraps",
    "Verif.RpcParam.id_params_hides",
    "Verif.RpcParam.read_beyond",
    "Verif.RpcParam.str_quoted",
    "Verif.RpcParam.link_flag",
    "Verif.RpcParam.json_text",
    "Verif.RpcParam.edit_unknown",
    "Verif.RpcParam.commands_known"
   ],
   "note": "Proved for all requests in which each value is followed directly by a comma or the closing bracket (JSON), has a type (XML) or has no ampersand (links). That the way of writing does not matter and that nothing behind the request is read is refuted."
  },
  {
   "property": "C111",
   "status": "partial",
   "theorems": [
    "Verif.GroupEdit.files_paused",
    "Verif.GroupEdit.pars_paused",
    "Verif.GroupEdit.extra_pars_paused",
    "Verif.GroupEdit.entries_paused",
    "Verif.GroupEdit.entries_pars_paused",
    "Verif.GroupEdit.attributes_set",
    "Verif.GroupEdit.parameter_set",
    "Verif.GroupEdit.mode_set",
    "Verif.GroupEdit.names_edited",
    "Verif.GroupEdit.regex_edited",
    "Verif.GroupEdit.entries_deleted",
    "Verif.GroupEdit.pars_reported_failed",
    "Verif.GroupEdit.wrong_argument_accepted",
    "Verif.GroupEdit.extra_pars_twice",
    "Verif.GroupEdit.deleted_twice"
   ],
   "note": "Proved for all queues and lists of ids; for pausing par-files of named files and for deletion each id must be given once. That repeated ids and names do not matter and that success is reported exactly if something could be changed is refuted."
  },
  {
   "property": "C112",
   "status": "partial",
   "theorems": [
    "Verif.FileSort.order_defined",
    "Verif.FileSort.files_sorted_partial",
    "Verif.FileSort.rar_circle",
    "Verif.FileSort.three_digits_undefined",
    "Verif.FileSort.par_circle"
   ],
   "note": "Proved for all lists in which no name comes between parts of an archive or par-files of a collection; for the others it is refuted, because the comparison runs in a circle."
  },
  {
   "property": "C113",
   "status": "partial",
   "theorems": [
    "Verif.MsgLog.ids_consecutive",
    "Verif.MsgLog.latest_messages",
    "Verif.MsgLog.latest_messages_uncleared",
    "Verif.MsgLog.file_lines",
    "Verif.MsgLog.early_messages_partial",
    "Verif.MsgLog.query_result",
    "Verif.MsgLog.nothing_missed",
    "Verif.MsgLog.binary_reply",
    "Verif.MsgLog.binary_messages",
    "Verif.MsgLog.lost_while_reading",
    "Verif.MsgLog.binary_negative"
   ],
   "note": "Proved for all histories, except that messages written between reading the options and the initialisation of the log are lost if they go to the file only (refuted by lost_while_reading), and that a negative number of lines in a binary request is not refused."
  },
  {
   "property": "C114",
   "status": "partial",
   "theorems": [
    "Verif.NzbLog.log_read_back_partial",
    "Verif.NzbLog.kept_plain",
    "Verif.NzbLog.kept_long",
    "Verif.NzbLog.torn_write",
    "Verif.NzbLog.read_while_written",
    "Verif.NzbLog.blank_hides",
    "Verif.NzbLog.shown_log"
   ],
   "note": "Proved for messages with visible text; a message without visible text hides all later ones (blank_hides)."
  },
  {
   "property": "C115",
   "status": "partial",
   "theorems": [
    "Verif.QueueScript.usable_spec",
    "Verif.QueueScript.event_reaches_scripts",
    "Verif.QueueScript.one_at_a_time",
    "Verif.QueueScript.never_idle",
    "Verif.QueueScript.each_once",
    "Verif.QueueScript.file_script_once",
    "Verif.QueueScript.dropped_why",
    "Verif.QueueScript.queue_drains",
    "Verif.QueueScript.has_job",
    "Verif.QueueScript.queue_size",
    "Verif.QueueScript.interval_respected",
    "Verif.QueueScript.interval_kept",
    "Verif.QueueScript.interval_over",
    "Verif.QueueScript.last_comes_first",
    "Verif.QueueScript.may_starve",
    "Verif.QueueScript.deletion_not_told",
    "Verif.QueueScript.interval_same_second"
   ],
   "note": "Proved: one at a time, none idle, each item started or dropped once and why, intervals. Refuted: the order by priority (last_comes_first), progress under continuous events (may_starve), NZB_DELETED of bad or unkept entries (deletion_not_told), the interval within one second (interval_same_second)."
  },
  {
   "property": "C116",
   "status": "partial",
   "theorems": [
    "Verif.ParQuick.success_check",
    "Verif.ParQuick.success_exact",
    "Verif.ParQuick.intact_passes",
    "Verif.ParQuick.damage_detected",
    "Verif.ParQuick.short_file_passes",
    "Verif.ParQuick.valid_covered",
    "Verif.ParQuick.valid_complete",
    "Verif.ParQuick.range_crc_partial",
    "Verif.ParQuick.partial_check_partial",
    "Verif.ParQuick.two_articles",
    "Verif.ParQuick.one_article",
    "Verif.ParQuick.last_byte_left_out",
    "Verif.ParQuick.one_byte_not_read",
    "Verif.ParQuick.attach_undo",
    "Verif.ParQuick.attach_exact",
    "Verif.ParQuick.verify_file",
    "Verif.ParQuick.equal_blocks"
   ],
   "note": "Proved for complete files of the right size; for partly downloaded files under a condition on how articles lie against the ranges. Refuted outside of it (two_articles, one_article, last_byte_left_out, one_byte_not_read: the file falls back to the full verification) for files with equal blocks (equal_blocks) and for files which lack zeros at the end (short_file_passes). Not modelled: the full verification of libpar2."
  },
  {
   "property": "C117",
   "status": "partial",
   "theorems": [
    "Verif.Nntp.lines_sent",
    "Verif.Nntp.auth_error_stops",
    "Verif.Nntp.auth_bounded",
    "Verif.Nntp.connect_authorised",
    "Verif.Nntp.second_connect",
    "Verif.Nntp.request_answer",
    "Verif.Nntp.no_credentials",
    "Verif.Nntp.group_joined_partial",
    "Verif.Nntp.fetch_joined_partial",
    "Verif.Nntp.stale_group",
    "Verif.Nntp.stale_not_found",
    "Verif.Nntp.no_groups",
    "Verif.Nntp.fetch_answer",
    "Verif.Nntp.one_line",
    "Verif.Nntp.injected",
    "Verif.Nntp.no_line"
   ],
   "note": "Authorisation and answers: proved for all servers. The group: proved as long as no connection is lost or cancelled, refuted otherwise (stale_group, stale_not_found). Refuted: one line per request for message-ids with line breaks or of 1017 bytes (injected, no_line); files without groups (no_groups)."
  },
  {
   "property": "C118",
   "status": "partial",
   "theorems": [
    "Verif.BinReq.auth_iff",
    "Verif.BinReq.auth_safe",
    "Verif.BinReq.authorised",
    "Verif.BinReq.unauthorised",
    "Verif.BinReq.complete",
    "Verif.BinReq.truncated",
    "Verif.BinReq.sent_pause",
    "Verif.BinReq.sent_rate",
    "Verif.BinReq.sent_log",
    "Verif.BinReq.sent_scan",
    "Verif.BinReq.sent_history",
    "Verif.BinReq.sent_plain",
    "Verif.BinReq.sent_list",
    "Verif.BinReq.sent_writeLog",
    "Verif.BinReq.sent_file_partial",
    "Verif.BinReq.sent_url",
    "Verif.BinReq.sent_edit",
    "Verif.BinReq.empty_file",
    "Verif.BinReq.file_like_url",
    "Verif.BinReq.names_overrun",
    "Verif.BinReq.negative_text",
    "Verif.BinReq.negative_length",
    "Verif.BinReq.negative_line",
    "Verif.BinReq.long_password"
   ],
   "note": "Access and completeness proved for all bytes. Round trips proved for all commands; files need seven bytes and must not begin like an address (refuted otherwise: empty_file, file_like_url), and the password must fit (long_password). Reading outside of buffers: refuted (names_overrun, negative_text, negative_length, negative_line)."
  },
  {
   "property": "C119",
   "status": "partial",
   "theorems": [
    "Verif.BinResp.bool_received",
    "Verif.BinResp.list_size",
    "Verif.BinResp.list_received",
    "Verif.BinResp.list_truncated",
    "Verif.BinResp.post_size",
    "Verif.BinResp.post_received",
    "Verif.BinResp.post_truncated",
    "Verif.BinResp.hist_size",
    "Verif.BinResp.history_received_partial",
    "Verif.BinResp.history_truncated",
    "Verif.BinResp.script_shown",
    "Verif.BinResp.log_size",
    "Verif.BinResp.log_received",
    "Verif.BinResp.negative_lines"
   ],
   "note": "Everything proved for all queues, jobs and histories but for the status of scripts in the history, which is refuted (script_shown), and for negative numbers of lines of the log (negative_lines)."
  },
  {
   "property": "C12",
   "status": "partial",
   "theorems": [
    "Verif.Pool.level_counter_partial",
    "Verif.Pool.level_counter_exact",
    "Verif.Pool.level_counter_wrong"
   ],
   "note": "Refuted as stated (reconfiguration counts connections in use); the exact drift is proved."
  },
  {
   "property": "C120",
   "status": "partial",
   "theorems": [
    "Verif.ScriptRun.lines_received",
    "Verif.ScriptRun.tagged_line",
    "Verif.ScriptRun.untagged_line",
    "Verif.ScriptRun.empty_line",
    "Verif.ScriptRun.command_done",
    "Verif.ScriptRun.other_line",
    "Verif.ScriptRun.unknown_command",
    "Verif.ScriptRun.mark_bad",
    "Verif.ScriptRun.harmless_name",
    "Verif.ScriptRun.long_value_cut",
    "Verif.ScriptRun.overlong_line",
    "Verif.ScriptRun.name_is_executed",
    "Verif.ScriptRun.name_never_ends",
    "Verif.ScriptRun.mark_reads_behind",
    "Verif.ScriptRun.analyse_status",
    "Verif.ScriptRun.statusOf_unique",
    "Verif.ScriptRun.execList_done",
    "Verif.ScriptRun.chosen_iff",
    "Verif.ScriptRun.scripts_run",
    "Verif.ScriptRun.upTo_spec",
    "Verif.ScriptRun.comma_never_run",
    "Verif.ScriptRun.total_status",
    "Verif.ScriptRun.killed_failed",
    "Verif.ScriptRun.norm_name",
    "Verif.ScriptRun.environment_complete",
    "Verif.ScriptRun.environment_only",
    "Verif.ScriptRun.extension_spec",
    "Verif.ScriptRun.norm_spec",
    "Verif.ScriptRun.args_unchanged",
    "Verif.ScriptRun.shell_override",
    "Verif.ScriptRun.shell_default",
    "Verif.ScriptRun.no_extension_crash"
   ],
   "note": "Proved for all outputs and scripts where lines fit and the name of the download is harmless; refuted for lines which are too long, for names which look like commands and for scripts without an extension. Queue scripts: C115, scan scripts: C104."
  },
  {
   "property": "C121",
   "status": "partial",
   "theorems": [
    "Verif.DirectRename.analyse_spec",
    "Verif.DirectRename.one_piece",
    "Verif.DirectRename.small_par_lost",
    "Verif.DirectRename.retry_keeps",
    "Verif.DirectRename.learn_spec",
    "Verif.DirectRename.unpause_spec",
    "Verif.DirectRename.load_when",
    "Verif.DirectRename.last_par_not_read",
    "Verif.DirectRename.regular_iff",
    "Verif.DirectRename.parName_spec",
    "Verif.DirectRename.needPars_iff",
    "Verif.DirectRename.queued_renamed",
    "Verif.DirectRename.pars_stay",
    "Verif.DirectRename.loadAll_mem",
    "Verif.DirectRename.completed_kept_partial",
    "Verif.DirectRename.renamed_once",
    "Verif.DirectRename.swapped_lost",
    "Verif.DirectRename.same_start_lost",
    "Verif.DirectRename.written_stale"
   ],
   "note": "Proved for all articles of which at least 64 bytes arrive before the last piece and for all directories where nothing is in the way of the new names; refuted otherwise. The counters which change with the mark of a par2-file: C23. MD5 and the reader of par2-packets are parameters."
  },
  {
   "property": "C122",
   "status": "partial",
   "theorems": [
    "Verif.DirectUnpack.success_sound",
    "Verif.DirectUnpack.ran_step",
    "Verif.DirectUnpack.started",
    "Verif.DirectUnpack.scan_all",
    "Verif.DirectUnpack.relocated_stops",
    "Verif.DirectUnpack.archives_accounted",
    "Verif.DirectUnpack.success_all_partial",
    "Verif.DirectUnpack.missed_archive",
    "Verif.DirectUnpack.uses_iff",
    "Verif.DirectUnpack.answered_when",
    "Verif.DirectUnpack.woken",
    "Verif.DirectUnpack.no_wait_after_completion",
    "Verif.DirectUnpack.unanswered",
    "Verif.DirectUnpack.missed_volume",
    "Verif.DirectUnpack.give_completed",
    "Verif.DirectUnpack.dead_stays",
    "Verif.DirectUnpack.dead_reachable",
    "Verif.DirectUnpack.orphan_stays",
    "Verif.DirectUnpack.deleted_hangs",
    "Verif.DirectUnpack.stop_terminates",
    "Verif.DirectUnpack.crash_only",
    "Verif.DirectUnpack.no_entry_crash",
    "Verif.DirectUnpack.closed_pipe_crash",
    "Verif.DirectUnpack.stopped_no_success",
    "Verif.DirectUnpack.post_goes_on",
    "Verif.DirectUnpack.failed_clean",
    "Verif.DirectUnpack.leftovers_kept",
    "Verif.DirectUnpack.cancelled_left",
    "Verif.DirectUnpack.isMain_iff",
    "Verif.DirectUnpack.isArchive_iff",
    "Verif.DirectUnpack.question_read",
    "Verif.DirectUnpack.question_asks",
    "Verif.DirectUnpack.clear_of_no_bracket",
    "Verif.DirectUnpack.backspace_repeats",
    "Verif.DirectUnpack.line_read",
    "Verif.DirectUnpack.isDamage_iff",
    "Verif.DirectUnpack.message_effect",
    "Verif.DirectUnpack.extractsFrom_iff"
   ],
   "note": "Proved for all schedules: soundness of success, answers, no waiting after completion, cleaning after failures, post-processing. Refuted with schedules: every first volume is unpacked (proved without reports in one window), every completed volume wakes unrar, no deadlock, no orphans, no undefined behaviour."
  },
  {
   "property": "C123",
   "status": "partial",
   "theorems": [
    "Verif.UnpackRun.success_sound",
    "Verif.UnpackRun.status_sound",
    "Verif.UnpackRun.runAll_spec",
    "Verif.UnpackRun.unrar_args",
    "Verif.UnpackRun.sevenZip_args",
    "Verif.UnpackRun.passwordArg_inj",
    "Verif.UnpackRun.dash_is_none",
    "Verif.UnpackRun.password_lines",
    "Verif.UnpackRun.long_line_split",
    "Verif.UnpackRun.all_tried",
    "Verif.UnpackRun.quiet_of_name",
    "Verif.UnpackRun.space_explained",
    "Verif.UnpackRun.stop_halts",
    "Verif.UnpackRun.cancel_stays",
    "Verif.UnpackRun.cancel_forgotten",
    "Verif.UnpackRun.cancel_lost",
    "Verif.UnpackRun.name_stops",
    "Verif.UnpackRun.crc_failed_name",
    "Verif.UnpackRun.loud_name",
    "Verif.UnpackRun.after_backspace",
    "Verif.UnpackRun.outside_iff",
    "Verif.UnpackRun.success_outside",
    "Verif.UnpackRun.outside_harmless",
    "Verif.UnpackRun.exit11_kills"
   ],
   "note": "Success, arguments, order of passwords, lack of space are proved for all processes. That a stop by the user ends the job is proved if the job was not being stopped automatically, and refuted otherwise (cancel_lost). Names which look like messages break unpacking (name_stops, loud_name)."
  },
  {
   "property": "C124",
   "status": "partial",
   "theorems": [
    "Verif.DelTree.delete_inside",
    "Verif.DelTree.delete_all",
    "Verif.DelTree.careful",
    "Verif.DelTree.tree_spec",
    "Verif.DelTree.follows_link",
    "Verif.DelTree.link_witness",
    "Verif.DelTree.outside_not_safe",
    "Verif.DelTree.long_never_ends"
   ],
   "note": "Proved for all file systems and depths if there is no link in the directory and no path in it is over 1023 bytes; refuted for links to directories (follows_link) and for paths of 1022 or 1023 bytes (long_never_ends)."
  },
  {
   "property": "C125",
   "status": "partial",
   "theorems": [
    "Verif.HistEdit.others_untouched",
    "Verif.HistEdit.result_found",
    "Verif.HistEdit.result_last",
    "Verif.HistEdit.texts_only",
    "Verif.HistEdit.texts_set",
    "Verif.HistEdit.backup_only",
    "Verif.HistEdit.delete_download",
    "Verif.HistEdit.hidden_status",
    "Verif.HistEdit.delete_keeps_success",
    "Verif.HistEdit.delete_other",
    "Verif.HistEdit.delete_hidden_nothing",
    "Verif.HistEdit.inter_dirs_differ",
    "Verif.HistEdit.same_name_same_dir",
    "Verif.HistEdit.duplicate_deletes_files",
    "Verif.HistEdit.film_lost",
    "Verif.HistEdit.again_download",
    "Verif.HistEdit.again_refused",
    "Verif.HistEdit.merged_refused",
    "Verif.HistEdit.name_is_a_path",
    "Verif.HistEdit.dot_names",
    "Verif.HistEdit.dot_deletes_all",
    "Verif.HistEdit.dot_witness",
    "Verif.HistEdit.bad_parameter",
    "Verif.HistEdit.change_not_saved"
   ],
   "note": "That others are untouched, what is deleted, what is changed and the result are proved for all histories and disks. That files of other downloads stay is refuted for shared directories (duplicate_deletes_files) and for names which are paths (dot_deletes_all); that the result tells of failures and changes are saved is refuted by change_not_saved. Marking, returning and processing again are in C56 and C98."
  },
  {
   "property": "C126",
   "status": "partial",
   "theorems": [
    "Verif.StartUp.restart",
    "Verif.StartUp.restart_again",
    "Verif.StartUp.history_kept",
    "Verif.StartUp.interrupted_save",
    "Verif.StartUp.kept_files",
    "Verif.StartUp.kept_fixed",
    "Verif.StartUp.cleanup_keeps",
    "Verif.StartUp.cleanup_keeps_others",
    "Verif.StartUp.cleanup_deletes",
    "Verif.StartUp.temp_articles",
    "Verif.StartUp.unknown_kind_crashes",
    "Verif.StartUp.foreign_deleted",
    "Verif.StartUp.foreign_deleted_too",
    "Verif.StartUp.temp_foreign_deleted",
    "Verif.StartUp.newer_version",
    "Verif.StartUp.damaged_history",
    "Verif.StartUp.cut_state",
    "Verif.StartUp.unreadable_dropped",
    "Verif.StartUp.stale_files"
   ],
   "note": "That what was saved completely comes back, in any order of the directory, and that a second start changes nothing is proved for directories which hold only files of the program. That only leftovers are deleted is refuted for files of others (foreign_deleted, foreign_deleted_too, temp_foreign_deleted); that damage affects nothing else is refuted by damaged_history, cut_state and stale_files. Reading of older versions is not modelled."
  },
  {
   "property": "C127",
   "status": "partial",
   "theorems": [
    "Verif.Pause.pause_holds",
    "Verif.Pause.running_holds",
    "Verif.Pause.command_sets",
    "Verif.Pause.last_task_wins",
    "Verif.Pause.auto_resume",
    "Verif.Pause.scheduled",
    "Verif.Pause.resume_beats_schedule",
    "Verif.Pause.who_may_start",
    "Verif.Pause.what_else_may_start",
    "Verif.Pause.start_paused",
    "Verif.Pause.fetch_spec",
    "Verif.Pause.quota_separate",
    "Verif.Pause.waits_for_dirs",
    "Verif.Pause.start_waits",
    "Verif.Pause.dirs_lift",
    "Verif.Pause.held_for_jobs",
    "Verif.Pause.rate_sets",
    "Verif.Pause.negative_rate",
    "Verif.Pause.edit_only_named",
    "Verif.Pause.edit_unique",
    "Verif.Pause.task_servers",
    "Verif.Pause.number_before_name",
    "Verif.Pause.full_disk_limits",
    "Verif.Pause.full_disk_stays",
    "Verif.Pause.schedule_undoes_start",
    "Verif.Pause.restart_forgets",
    "Verif.Pause.not_waiting"
   ],
   "note": "That nothing is downloaded before the required directories are there holds for files without extra priority (waits_for_dirs) and is refuted for the others (not_waiting). That a task changes exactly the servers it names holds for references which fit one server (edit_unique) and is refuted for names which begin with a number (number_before_name). The setters are taken as atomic."
  },
  {
   "property": "C128",
   "status": "proved",
   "theorems": [
    "Verif.Throttle.limit_holds",
    "Verif.Throttle.limit_holds_long",
    "Verif.Throttle.no_limit",
    "Verif.Throttle.wait_ends",
    "Verif.Throttle.clock_back"
   ],
   "note": "For a clock which does not go back and a constant limit. Calls of the meter are taken as one step each, which the code does not guarantee; for the clock set back see clock_back."
  },
  {
   "property": "C129",
   "status": "partial",
   "theorems": [
    "Verif.StatTime.times_shown",
    "Verif.StatTime.clock_change",
    "Verif.StatTime.change_counted_twice"
   ],
   "note": "Proved for a steady clock (times_shown); refuted for changes of the clock (clock_change, change_counted_twice)."
  },
  {
   "property": "C13",
   "status": "proved",
   "theorems": [
    "Verif.Download.failed_only_after_all_tried",
    "Verif.Download.finished_means_delivered"
   ],
   "note": "Pool states vary arbitrarily between accesses within one configuration generation."
  },
  {
   "property": "C130",
   "status": "proved",
   "theorems": [
    "Verif.Service.wait_exact",
    "Verif.Service.exact_period",
    "Verif.Service.sleeps",
    "Verif.Service.now_works",
    "Verif.Service.clock_back",
    "Verif.Service.at_full_minutes"
   ],
   "note": "The work of the services takes no time in the model; with work that takes time the others are later by it."
  },
  {
   "property": "C131",
   "status": "partial",
   "theorems": [
    "Verif.Status.one_of_four",
    "Verif.Status.shows_success",
    "Verif.Status.shows_failure",
    "Verif.Status.shows_deleted",
    "Verif.Status.reason",
    "Verif.Status.scripts_total",
    "Verif.Status.scripts_see",
    "Verif.Status.link_status",
    "Verif.Status.counts_success",
    "Verif.Status.hidden_keeps",
    "Verif.Status.script_sees",
    "Verif.Status.dupes_seen",
    "Verif.Status.move_failure_counts",
    "Verif.Status.health_failure_counts"
   ],
   "note": "Proved: the status, its reason, what scripts and feeds see, and that successes and deletions are the same for duplicates and hidden records. Refuted: failures need not be failures for duplicates (move_failure_counts, health_failure_counts)."
  },
  {
   "property": "C132",
   "status": "partial",
   "theorems": [
    "Verif.CmdArgs.edit_commands",
    "Verif.CmdArgs.edit_texts",
    "Verif.CmdArgs.edit_offsets",
    "Verif.CmdArgs.edit_default",
    "Verif.CmdArgs.targets_kept",
    "Verif.CmdArgs.ids_read",
    "Verif.CmdArgs.ids_exact",
    "Verif.CmdArgs.ids_positive",
    "Verif.CmdArgs.ids_refused",
    "Verif.CmdArgs.append_command",
    "Verif.CmdArgs.append_needs_file",
    "Verif.CmdArgs.standalone",
    "Verif.CmdArgs.file_argument",
    "Verif.CmdArgs.control_commands",
    "Verif.CmdArgs.control_defaults",
    "Verif.CmdArgs.control_then_settings",
    "Verif.CmdArgs.too_many",
    "Verif.CmdArgs.start_paused",
    "Verif.CmdArgs.files_park_deletes_groups",
    "Verif.CmdArgs.groups_split_takes_files",
    "Verif.CmdArgs.ids_wrap",
    "Verif.CmdArgs.late_switch_sent",
    "Verif.CmdArgs.late_switch_ids"
   ],
   "note": "Proved for all spellings, lists and settings before the command. Refuted: the kind of things for DP, SF and S (files_park_deletes_groups, groups_split_takes_files), large ids (ids_wrap), switches behind the file (late_switch_sent, late_switch_ids). Several switches in one word and abbreviated long names are not modelled."
  },
  {
   "property": "C133",
   "status": "partial",
   "theorems": [
    "Verif.Galois.mul_spec",
    "Verif.Galois.div_spec",
    "Verif.Galois.pow_spec",
    "Verif.Rs.repair_exact",
    "Verif.Rs.repair_consecutive",
    "Verif.Rs.repair_single",
    "Verif.Rs.repair_refused",
    "Verif.Rs.repair_singular",
    "Verif.Rs.repair_can_fail"
   ],
   "note": "What is computed is exactly the missing data, for all inputs (repair_exact). That it can be computed is proved for recovery blocks with consecutive exponents and for one missing block; refuted in general (repair_can_fail): the elimination does not exchange rows."
  },
  {
   "property": "C134",
   "status": "partial",
   "theorems": [
    "Verif.RepairFiles.success_complete",
    "Verif.RepairFiles.failure_keeps",
    "Verif.RepairFiles.success_keeps",
    "Verif.RepairFiles.place_stays",
    "Verif.RepairFiles.source_consumed",
    "Verif.RepairFiles.damaged_consumed",
    "Verif.RepairFiles.complete_moved",
    "Verif.RepairFiles.failed_leaves_renamed",
    "Verif.RepairFiles.failed_leaves_wrong",
    "Verif.RepairFiles.quick_success_wrong",
    "Verif.RepairFiles.clash_loses"
   ],
   "note": "Proved for sets in which no name is another name of the set with a number behind it, and for quick verification if what is written is right (C133); without these refuted (clash_loses, quick_success_wrong). The state which the verification leaves is a hypothesis."
  },
  {
   "property": "C135",
   "status": "partial",
   "theorems": [
    "Verif.ParVerdict.target_inside",
    "Verif.ParVerdict.verdict_spec",
    "Verif.ParVerdict.others_hide",
    "Verif.ParVerdict.others_undefined",
    "Verif.ParVerdict.hasDamaged_iff",
    "Verif.ParVerdict.fragments_iff",
    "Verif.ParVerdict.missing_iff",
    "Verif.ParVerdict.notNeeded_iff",
    "Verif.ParVerdict.repaired_iff",
    "Verif.ParVerdict.repair_only",
    "Verif.ParVerdict.morePars_only",
    "Verif.ParVerdict.dupes_only",
    "Verif.ParVerdict.cancelled",
    "Verif.ParVerdict.cancelled_late",
    "Verif.ParVerdict.repaired_complete",
    "Verif.ParVerdict.unnoticed",
    "Verif.ParVerdict.failed_not_repaired",
    "Verif.ParVerdict.swapped_not_noticed",
    "Verif.ParVerdict.empty_not_noticed"
   ],
   "note": "The verdict of libpar2 is proved for sets with only recoverable files, refuted otherwise; 'not needed only if nothing is damaged' is refuted (unnoticed, failed_not_repaired, swapped_not_noticed, empty_not_noticed). The results of the steps are oracles."
  },
  {
   "property": "C136",
   "status": "partial",
   "theorems": [
    "Verif.ParWait.none_lost",
    "Verif.ParWait.gives_up",
    "Verif.ParWait.result_true",
    "Verif.ParWait.waits_for_something",
    "Verif.ParWait.work_limited",
    "Verif.ParWait.ends_or_waits",
    "Verif.ParWait.cancel_ends",
    "Verif.ParWait.empty_waits",
    "Verif.ParWait.lost_wakeup",
    "Verif.ParWait.paused_waits"
   ],
   "note": "All parts are proved except that waiting in vain is excluded only if no file was deleted or paused since the last request; otherwise refuted (lost_wakeup, paused_waits)."
  },
  {
   "property": "C137",
   "status": "proved",
   "theorems": [
    "Verif.ParThreads.complete",
    "Verif.ParThreads.same_as_alone",
    "Verif.ParThreads.cancel_obeyed",
    "Verif.ParThreads.always_right",
    "Verif.ParThreads.never_same_output",
    "Verif.ParThreads.buffer_stays",
    "Verif.ParThreads.returns_calm",
    "Verif.ParThreads.next_piece",
    "Verif.ParThreads.fails_only_cancelled",
    "Verif.ParThreads.can_end",
    "Verif.ParThreads.threads_limits"
   ],
   "note": "Under sequentially consistent memory; errors of reading and writing are not modelled."
  },
  {
   "property": "C138",
   "status": "partial",
   "theorems": [
    "Verif.DupeScan.sizeDiffOK_iff",
    "Verif.DupeScan.known_iff",
    "Verif.DupeScan.sources_iff",
    "Verif.DupeScan.sources_order",
    "Verif.DupeScan.plain_largest",
    "Verif.DupeScan.listed_largest",
    "Verif.DupeScan.stops_at",
    "Verif.DupeScan.main_not_largest",
    "Verif.DupeScan.same_main_missed",
    "Verif.DupeScan.ended_after_a_second",
    "Verif.DupeScan.clock_back_waits",
    "Verif.DupeScan.nothing_heard",
    "Verif.DupeScan.stat_total",
    "Verif.DupeScan.split_iff"
   ],
   "note": "The main file is the largest only without an archive or if the archive is read to its end; otherwise refuted (main_not_largest, same_main_missed). The limit of a minute is refuted (ended_after_a_second, clock_back_waits)."
  },
  {
   "property": "C139",
   "status": "partial",
   "theorems": [
    "Verif.DeleteJob.leaves",
    "Verif.DeleteJob.leaves_empty",
    "Verif.DeleteJob.park_empty_stays",
    "Verif.DeleteJob.outcome",
    "Verif.DeleteJob.deleted_ends",
    "Verif.DeleteJob.isTemp_iff",
    "Verif.DeleteJob.sweep_only",
    "Verif.DeleteJob.sweep_some",
    "Verif.DeleteJob.sweep_stays",
    "Verif.DeleteJob.foreign_stays",
    "Verif.DeleteJob.post_goes_on",
    "Verif.DeleteJob.post_final",
    "Verif.DeleteJob.dupe_after_delete",
    "Verif.DeleteJob.health_after_final",
    "Verif.DeleteJob.deleted_file_dropped",
    "Verif.DeleteJob.parked_file_written"
   ],
   "note": "That it leaves the queue and that nothing else is deleted is proved for all events. The end as commanded is proved unless, behind the command, a file turns out to be a duplicate or the health check acts; then it is refuted (dupe_after_delete, health_after_final). Parking a download without files is refuted (park_empty_stays)."
  },
  {
   "property": "C14",
   "status": "partial",
   "theorems": [
    "Verif.StateFile.state_file_atomic_partial",
    "Verif.StateFile.interrupted_save",
    "Verif.StateFile.first_save_not_atomic",
    "Verif.StateFile.discarded_file_comes_back",
    "Verif.StateFile.crash_can_lose_the_queue"
   ],
   "note": "Refuted for the first save, for a discard after an interrupted save, and for the whole start sequence without a history file; proved for all other histories of saves, discards and crashes."
  },
  {
   "property": "C140",
   "status": "partial",
   "theorems": [
    "Verif.ForceDir.creates",
    "Verif.ForceDir.success",
    "Verif.ForceDir.only_adds",
    "Verif.ForceDir.file_in_way",
    "Verif.ForceDir.again",
    "Verif.ForceDir.cut",
    "Verif.ForceDir.force_depth",
    "Verif.ForceDir.below_root",
    "Verif.ForceDir.root_fails"
   ],
   "note": "Proved for every path of which more than the root exists already; refuted for paths whose first directory is missing (below_root) and for the root (root_fails). Paths of more than 1023 bytes are cut (cut)."
  },
  {
   "property": "C141",
   "status": "partial",
   "theorems": [
    "Verif.LogRotate.old_iff",
    "Verif.LogRotate.deleted_by_day_partial",
    "Verif.LogRotate.today_kept_partial",
    "Verif.LogRotate.rotation",
    "Verif.LogRotate.file_of_the_day_partial",
    "Verif.LogRotate.future_deleted",
    "Verif.LogRotate.past_kept",
    "Verif.LogRotate.wild_name",
    "Verif.LogRotate.no_directory"
   ],
   "note": "Proved for times before 19 January 2038 and for names of log files without *, ? and #; both limits are necessary (future_deleted, past_kept, wild_name)."
  },
  {
   "property": "C142",
   "status": "partial",
   "theorems": [
    "Verif.FeedTerm.size_condition_partial",
    "Verif.FeedTerm.age_condition_partial",
    "Verif.FeedTerm.number_condition_partial",
    "Verif.FeedTerm.text_field_condition",
    "Verif.FeedTerm.attribute_condition",
    "Verif.FeedTerm.title_condition",
    "Verif.FeedTerm.unknown_field",
    "Verif.FeedTerm.unknown_unit",
    "Verif.FeedTerm.no_field_no_number",
    "Verif.FeedTerm.missing_is_zero"
   ],
   "note": "Proved for numbers without fraction up to 2^53 and for fields which the item has. Refuted for comparisons without a field and for missing fields. Fractions and regular expressions are not modelled; what a text meets is C58."
  },
  {
   "property": "C143",
   "status": "partial",
   "theorems": [
    "Verif.FeedOpts.options_read",
    "Verif.FeedOpts.rule_with_options",
    "Verif.FeedOpts.rule_plain",
    "Verif.FeedOpts.parts_valid",
    "Verif.FeedOpts.rule_bare",
    "Verif.FeedOpts.rules_separated",
    "Verif.FeedOpts.unknown_option",
    "Verif.FeedOpts.missing_number",
    "Verif.FeedOpts.reject_accepts",
    "Verif.FeedRefs.references_expanded_partial",
    "Verif.FeedRefs.after_hundred",
    "Verif.FeedRefs.missing_wildcard",
    "Verif.FeedRefs.value_expanded"
   ],
   "note": "Proved for every list of known options with proper values. Refuted for unknown options, missing numbers and reject rules with brackets, which are accepted as other rules. References in values are expanded for up to 100 existing references and texts without $; all three limits are necessary."
  },
  {
   "property": "C144",
   "status": "partial",
   "theorems": [
    "Verif.NzbPass.password_read_partial",
    "Verif.NzbPass.password_left",
    "Verif.NzbPass.number_at_end",
    "Verif.NzbPass.empty_file"
   ],
   "note": "Proved for passwords escaped with the five named references; for a password ending with a reference by number the property is false (number_at_end)."
  },
  {
   "property": "C145",
   "status": "partial",
   "theorems": [
    "Verif.FeedParse.feed_read_partial",
    "Verif.FeedParse.filename_plain",
    "Verif.FeedParse.filename_quoted",
    "Verif.FeedParse.number_of",
    "Verif.FeedParse.empty_description",
    "Verif.FeedParse.no_attributes",
    "Verif.FeedParse.quote_at_end",
    "Verif.FeedParse.blanks_lost",
    "Verif.FeedParse.behind_items",
    "Verif.FeedParse.size_lost"
   ],
   "note": "Proved for texts given in one piece, items with non-empty descriptions and proper enclosures, and nothing behind the items; each of these limits is necessary (refuting theorems)."
  },
  {
   "property": "C146",
   "status": "partial",
   "theorems": [
    "Verif.FeedSeason.season_found_partial",
    "Verif.FeedSeason.double_episode",
    "Verif.FeedSeason.same_notation",
    "Verif.FeedSeason.episode_zeros",
    "Verif.FeedSeason.at_the_end",
    "Verif.FeedSeason.at_the_beginning",
    "Verif.FeedSeason.no_title"
   ],
   "note": "Proved for titles without digits before the notation and with a character which is no letter and no digit on both sides; refuted at the end and at the beginning of titles, for zeros before the number of the episode and for missing titles."
  },
  {
   "property": "C147",
   "status": "partial",
   "theorems": [
    "Verif.CacheFlush.nothing_lost_partial",
    "Verif.CacheFlush.stop_writes_everything_partial",
    "Verif.CacheFlush.idle_files_written_partial",
    "Verif.CacheFlush.busy_untouched",
    "Verif.CacheFlush.full_written",
    "Verif.CacheFlush.waits_for_downloads",
    "Verif.CacheFlush.write_error_lost",
    "Verif.CacheFlush.open_error_drops"
   ],
   "note": "Proved for disks without errors, for files which are not deleted and articles which are not empty; refuted for errors of writing and opening."
  },
  {
   "property": "C148",
   "status": "partial",
   "theorems": [
    "Verif.FileCrc.told_what_is_known_partial",
    "Verif.FileCrc.not_downloaded",
    "Verif.FileCrc.success_true",
    "Verif.FileCrc.case_confused"
   ],
   "note": "Proved for files whose names differ in more than capital letters; refuted otherwise."
  },
  {
   "property": "C15",
   "status": "partial",
   "theorems": [
    "Verif.StateFile.unmoved_items_survive_partial",
    "Verif.StateFile.moved_item_survives_partial",
    "Verif.StateFile.moved_item_lost",
    "Verif.StateFile.crash_can_lose_the_queue",
    "Verif.StateFile.stale_progress_breaks_loading",
    "Verif.StateFile.saved_queue_is_loaded",
    "Verif.StateFile.interrupted_queue_save"
   ],
   "note": "Refuted as stated: the queue file is replaced before the history file. The exact result of every crash point is proved."
  },
  {
   "property": "C16",
   "status": "partial",
   "theorems": [
    "Verif.Record.record_roundtrip_partial",
    "Verif.Record.queue_roundtrip_partial",
    "Verif.Record.dupe_mode_lost",
    "Verif.Record.long_text_overflows",
    "Verif.Record.interrupted_move_is_not_resumed",
    "Verif.Record.time_after_2038"
   ],
   "note": "Refuted for dupe mode/hint, post-processing stage, texts of 1024 and more characters and times after 2038; proved for all other fields and the whole queue file."
  },
  {
   "property": "C17",
   "status": "partial",
   "theorems": [
    "Verif.FileState.file_state_roundtrip_partial",
    "Verif.FileState.article_list_roundtrip",
    "Verif.FileState.large_offset_lost",
    "Verif.FileState.too_many_articles_throw"
   ],
   "note": "Refuted for articles at offsets of 4 GiB and more (saved as 32 bit); proved for all others."
  },
  {
   "property": "C18",
   "status": "partial",
   "theorems": [
    "Verif.Servers.server_match_injective",
    "Verif.Servers.unchanged_server_keeps_statistics",
    "Verif.Servers.unchanged_configuration",
    "Verif.Servers.volumes_survive_restart_partial",
    "Verif.Servers.long_host_loses_statistics",
    "Verif.Servers.incomplete_definition_breaks_index",
    "Verif.Servers.complete_definitions_index"
   ],
   "note": "The matching itself is proved for all configurations. Refuted through the text form for host names over 198 characters, and for the index of the volumes after an incomplete server definition."
  },
  {
   "property": "C19",
   "status": "proved",
   "theorems": [
    "Verif.Scheduler.task_runs_once_per_due_time",
    "Verif.Scheduler.clock_step_repeats_week",
    "Verif.Scheduler.startup_task_runs_once",
    "Verif.Scheduler.first_check_in_order",
    "Verif.Scheduler.winter_time_repeats_task"
   ],
   "note": "For a constant offset of the local time. winter_time_repeats_task shows the limit: when the local clock is set back a task in the repeated hour can run twice."
  },
  {
   "property": "C20",
   "status": "partial",
   "theorems": [
    "Verif.QueueEdit.move_up",
    "Verif.QueueEdit.move_down",
    "Verif.QueueEdit.move_top",
    "Verif.QueueEdit.move_bottom",
    "Verif.QueueEdit.move_before_after",
    "Verif.QueueEdit.move_to_selected",
    "Verif.QueueEdit.move_to_end",
    "Verif.QueueEdit.move_to_nothing",
    "Verif.QueueEdit.reorder_partial",
    "Verif.QueueEdit.reorder_twice_undefined",
    "Verif.QueueEdit.sort_groups",
    "Verif.QueueEdit.sort_groups_auto",
    "Verif.QueueEdit.sorter_not_weak_order"
   ],
   "note": "Moves and sorting are proved for every queue and selection. Reordering files is proved for commands without repeated ids and refuted for repeated ones. Sorting is about merge sorts: by the C++ standard the comparison used is not admissible."
  },
  {
   "property": "C21",
   "status": "partial",
   "theorems": [
    "Verif.Counters.split_partial",
    "Verif.Counters.split_exact",
    "Verif.Counters.split_paused_count_wrong",
    "Verif.Counters.split_stops_download",
    "Verif.Counters.split_restart_changes_failed",
    "Verif.Counters.split_extra_priority_wrong",
    "Verif.Counters.split_refused",
    "Verif.Counters.split_two_entries_undefined",
    "Verif.Counters.split_drops_completed"
   ],
   "note": "All counters are proved right but three, which are refuted: the new entry's number of paused files, failed sizes of missing articles, number of extra priority files. Refuted for a selection of files of two entries."
  },
  {
   "property": "C22",
   "status": "partial",
   "theorems": [
    "Verif.Counters.merge_partial",
    "Verif.Counters.merge_loses_extra_priority",
    "Verif.Counters.merge_negative_extra",
    "Verif.Counters.merge_completed_elsewhere",
    "Verif.Counters.merge_command",
    "Verif.Counters.merge_reports_contrary",
    "Verif.Counters.merge_refused_reports_success",
    "Verif.Counters.merge_twice_undefined"
   ],
   "note": "Files, counters and totals are proved; the number of extra priority files is refuted, the reported result is the contrary."
  },
  {
   "property": "C23",
   "status": "proved",
   "theorems": [
    "Verif.Counters.counters_describe_files"
   ],
   "note": "For every history of edits and downloads of an entry."
  },
  {
   "property": "C24",
   "status": "proved",
   "theorems": [
    "Verif.Counters.good_sizes",
    "Verif.Counters.health_is_share",
    "Verif.Counters.health_bounds",
    "Verif.Counters.critical_bounds"
   ],
   "note": "For entries up to 2^52 bytes, from the invariant of C23."
  },
  {
   "property": "C25",
   "status": "partial",
   "theorems": [
    "Verif.NextArticle.next_terminates",
    "Verif.NextArticle.next_is_ready",
    "Verif.NextArticle.next_exists",
    "Verif.NextArticle.next_is_best_partial",
    "Verif.NextArticle.next_is_permitted",
    "Verif.NextArticle.paused_only_forced",
    "Verif.NextArticle.extra_priority_hides_priority",
    "Verif.NextArticle.wrong_count_blocks",
    "Verif.NextArticle.rename_takes_paused_file"
   ],
   "note": "Selection, termination and existence are proved for every queue. The ranking is proved as far as the code's comparison is one; refuted when an entry has files with extra priority in flight, and with direct rename for first articles of paused files."
  },
  {
   "property": "C26",
   "status": "proved",
   "theorems": [
    "Verif.Dupe.chosen_backup_iff",
    "Verif.Dupe.failed_download_replaced",
    "Verif.Dupe.nothing_put_back",
    "Verif.Dupe.success_not_replaced",
    "Verif.Dupe.missing_source_blocks"
   ],
   "note": "missing_source_blocks shows the limit: without the nzb-file of the best backup the others are not tried."
  },
  {
   "property": "C27",
   "status": "partial",
   "theorems": [
    "Verif.Volume.day_volumes_partial",
    "Verif.Volume.total_volume",
    "Verif.Volume.days_end_in_2033",
    "Verif.Volume.early_report_shifts_days",
    "Verif.Volume.after_2038_out_of_bounds"
   ],
   "note": "Proved while no report is before the day of the first one and before 15 January 2033; refuted after that date and for a clock set back before the first day. Totals hold for any clock."
  },
  {
   "property": "C28",
   "status": "partial",
   "theorems": [
    "Verif.Volume.seconds_chart_exact",
    "Verif.Volume.minutes_and_hours_charts_partial",
    "Verif.Volume.skipped_slot_is_stale",
    "Verif.Volume.stale_minute"
   ],
   "note": "Seconds chart exact; minutes and hours refuted (one slot too few is cleared), exact when gaps are shorter than a unit, longer than the chart, or do not end earlier in the unit than they began."
  },
  {
   "property": "C29",
   "status": "proved",
   "theorems": [
    "Verif.Quota.speed_total_is_sum",
    "Verif.Quota.speed_not_negative",
    "Verif.Quota.momentary_speed",
    "Verif.Quota.negative_speed"
   ],
   "note": "Calls one after the other (the code has no lock here); the speed can be negative when the clock goes back."
  },
  {
   "property": "C30",
   "status": "partial",
   "theorems": [
    "Verif.Quota.quota_reached_partial",
    "Verif.Quota.quota_usage_partial",
    "Verif.Quota.calcMonthSlots_spec",
    "Verif.Quota.clock_back_ends_program",
    "Verif.Quota.quota_ends_in_2033"
   ],
   "note": "Proved while the clock is not before the first recorded day and before 15 January 2033; refuted otherwise."
  },
  {
   "property": "C31",
   "status": "partial",
   "theorems": [
    "Verif.Cache.accounting_exact",
    "Verif.Cache.alloc_within_limit",
    "Verif.Cache.alloc_refused",
    "Verif.Cache.within_limit_partial",
    "Verif.Cache.limit_exceeded",
    "Verif.Cache.flag_file_partial",
    "Verif.Cache.flag_file_wrong"
   ],
   "note": "Accounting and the limit of a single allocation are proved for every history. The limit over histories is proved if no article is larger than announced and refuted otherwise; the flag file is proved for positive sizes and refuted for articles announced with size 0."
  },
  {
   "property": "C32",
   "status": "partial",
   "theorems": [
    "Verif.Assemble.joined_file",
    "Verif.Assemble.direct_file_partial",
    "Verif.Assemble.first_article_creates",
    "Verif.Assemble.file_checksum",
    "Verif.Assemble.uu_file_partial",
    "Verif.Assemble.direct_holes_dirty",
    "Verif.Assemble.flush_loses_articles",
    "Verif.Assemble.uu_cached_overwritten",
    "Verif.Assemble.huge_hole_undefined",
    "Verif.Assemble.unordered_parts_misplaced"
   ],
   "note": "Proved for every history of ordered articles when articles are joined, and of articles with distinct ranges in direct write mode (there holes may contain left-overs). Refuted for uuencoded parts in the cache, files put back from history whose cache is flushed, and holes of 2 GB."
  },
  {
   "property": "C33",
   "status": "proved",
   "theorems": [
    "Verif.Writer.write_stays_in_segment",
    "Verif.Writer.content_complete",
    "Verif.Writer.content_of_too_large",
    "Verif.Writer.mislabelled_article",
    "Verif.Writer.yencSize_exact",
    "Verif.Writer.yencSize_bounds",
    "Verif.Writer.yencSize_wraps",
    "Verif.Writer.served_article_stored"
   ],
   "note": "No write outside of the segment. content_of_too_large and mislabelled_article show what happens instead to an article larger than announced: it is accepted with memory that was never written."
  },
  {
   "property": "C34",
   "status": "proved",
   "theorems": [
    "Verif.FeedFilter.first_deciding_rule",
    "Verif.FeedFilter.applyOptions_configured"
   ],
   "note": "For every list of compiled rules and every outcome of conditions."
  },
  {
   "property": "C35",
   "status": "partial",
   "theorems": [
    "Verif.FeedFilter.rule_text_value_partial",
    "Verif.FeedExpr.expression_value_partial",
    "Verif.FeedExpr.negated_bracket_ignored",
    "Verif.FeedExpr.mixed_group_inconsistent"
   ],
   "note": "Proved for every expression which does not mix and/or in one pair of brackets and negates single conditions only; refuted for the others."
  },
  {
   "property": "C36",
   "status": "proved",
   "theorems": [
    "Verif.WildMask.mask_meaning",
    "Verif.WildMask.matches_iff"
   ],
   "note": "Termination included."
  },
  {
   "property": "C37",
   "status": "proved",
   "theorems": [
    "Verif.WebAccess.access_iff",
    "Verif.WebAccess.rpc_only_with_credentials",
    "Verif.WebAccess.login"
   ],
   "note": "Tokens are taken as different from each other. rpc_only_with_credentials is for any bytes, login for well-formed requests."
  },
  {
   "property": "C38",
   "status": "proved",
   "theorems": [
    "Verif.WebAccess.files_inside"
   ],
   "note": "Directory shorter than 1023 characters; symbolic links are not modelled."
  },
  {
   "property": "C39",
   "status": "proved",
   "theorems": [
    "Verif.FileName.sanitised_valid",
    "Verif.FileName.valid_unchanged",
    "Verif.FileName.sanitise_idempotent",
    "Verif.FileName.download_name"
   ],
   "note": "Control characters are those below 32."
  },
  {
   "property": "C40",
   "status": "partial",
   "theorems": [
    "Verif.FileName.unique_name_partial",
    "Verif.FileName.unique_name_free_partial",
    "Verif.FileName.unique_not_directory"
   ],
   "note": "Proved for regular files, for any finite set of files; refuted for directories."
  },
  {
   "property": "C41",
   "status": "proved",
   "theorems": [
    "Verif.Base64.decode_inverts_encode",
    "Verif.Base64.decode_safe"
   ],
   "note": ""
  },
  {
   "property": "C42",
   "status": "partial",
   "theorems": [
    "Verif.XmlText.xml_encode_meaning",
    "Verif.XmlText.xml_encode_no_markup",
    "Verif.XmlText.xml_encode_fits",
    "Verif.XmlText.xml_round_trip",
    "Verif.XmlText.byte_80_raw",
    "Verif.XmlText.line_break_not_given_back"
   ],
   "note": "No raw markup for any bytes, meaning for every text in UTF-8, round trip for printable ASCII are proved. The answer is not well formed for texts with a byte 0x80 which is no UTF-8 (byte_80_raw)."
  },
  {
   "property": "C43",
   "status": "partial",
   "theorems": [
    "Verif.JsonText.json_encode_meaning_partial",
    "Verif.JsonText.json_encode_escaped",
    "Verif.JsonText.json_encode_fits",
    "Verif.JsonText.json_round_trip_partial",
    "Verif.JsonText.emoji_lost",
    "Verif.JsonText.json_byte_80_raw",
    "Verif.JsonText.accent_changed",
    "Verif.JsonText.control_digit_changed"
   ],
   "note": "Escaping is proved for any bytes, meaning for the basic plane, round trip for ASCII; refuted for the others."
  },
  {
   "property": "C44",
   "status": "proved",
   "theorems": [
    "Verif.Text.join_split",
    "Verif.Text.split_join",
    "Verif.Text.join_value"
   ],
   "note": ""
  },
  {
   "property": "C45",
   "status": "partial",
   "theorems": [
    "Verif.Calendar.timegm_next_partial",
    "Verif.Calendar.timegm_epoch",
    "Verif.Calendar.timegm_civil",
    "Verif.Calendar.timegm_month_overflow",
    "Verif.Calendar.year_0_wrong"
   ],
   "note": "All years from 1 on; years before are wrong (year_0_wrong). Integers unbounded."
  },
  {
   "property": "C46",
   "status": "proved",
   "theorems": [
    "Verif.ParName.same_refl_iff",
    "Verif.ParName.same_symm",
    "Verif.ParName.same_trans",
    "Verif.ParName.parse_main",
    "Verif.ParName.parse_vol",
    "Verif.ParName.parse_unconfirmed",
    "Verif.ParName.same_collection",
    "Verif.ParName.one_of_each_set"
   ],
   "note": "Names up to 1023 characters; numbers of blocks below 2^31."
  },
  {
   "property": "C47",
   "status": "partial",
   "theorems": [
    "Verif.NzbParse.nzb_read",
    "Verif.NzbParse.nzb_accounted",
    "Verif.NzbParse.order_of_segments",
    "Verif.NzbParse.described_fresh",
    "Verif.NzbParse.blanks_ignored",
    "Verif.NzbParse.flat_never_crashes_partial",
    "Verif.NzbParse.nested_file_crashes",
    "Verif.NzbParse.nested_segment_crashes",
    "Verif.NzbParse.nested_file_in_segment_crashes",
    "Verif.NzbParse.odd_segments"
   ],
   "note": "Accounting holds for every sequence of events, the contents for every proper document. Freedom from undefined behaviour is proved for documents without nested files and segments, and refuted for nested ones. libxml2 is not modelled."
  },
  {
   "property": "C48",
   "status": "proved",
   "theorems": [
    "Verif.Decoder.article_roundtrip",
    "Verif.Decoder.article_decoder_depends_on_cutting"
   ],
   "note": "Buffers never contain the response line; for articles of other posters the outcome may depend on the cutting (second theorem). Overlapping strncpy in StringBuilder::Append is assumed to copy correctly."
  },
  {
   "property": "C49",
   "status": "partial",
   "theorems": [
    "Verif.Decoder.uu_article_not_decoded",
    "Verif.Decoder.uuLoop_encode"
   ],
   "note": "Refuted: decoded bytes are not what is written. Proved: decoding of one line is the inverse of uuencoding."
  },
  {
   "property": "C50",
   "status": "proved",
   "theorems": [
    "Verif.Decoder.receive_always_terminates"
   ],
   "note": "yEnc and line mode; reads past the end of the line in DecodeUx are modelled as zero bytes."
  },
  {
   "property": "C51",
   "status": "partial",
   "theorems": [
    "Verif.Download.retries_respected_partial",
    "Verif.Download.retries_not_respected"
   ],
   "note": "Refuted as stated; proved without groups and connection failures."
  },
  {
   "property": "C52",
   "status": "partial",
   "theorems": [
    "Verif.StateFile.saved_progress_is_loaded",
    "Verif.StateFile.interrupted_progress_breaks_loading"
   ],
   "note": "The completed save is proved for every format; the crash clause is refuted for the first progress save after a queue save."
  },
  {
   "property": "C53",
   "status": "partial",
   "theorems": [
    "Verif.Counters.health_check_keeps_repairable_partial",
    "Verif.Counters.health_check_deletes_repairable"
   ],
   "note": "Proved as long as no par2-data failed; refuted otherwise."
  },
  {
   "property": "C54",
   "status": "partial",
   "theorems": [
    "Verif.Counters.restart_keeps_counters",
    "Verif.Counters.restart_after_history",
    "Verif.Counters.reload_exact",
    "Verif.Counters.split_restart_changes_failed"
   ],
   "note": "Proved for every history of one entry; refuted after a split."
  },
  {
   "property": "C55",
   "status": "partial",
   "theorems": [
    "Verif.Dupe.new_download",
    "Verif.Dupe.taken_over",
    "Verif.Dupe.scanQueue_eq",
    "Verif.Dupe.copy_missed_on_redownload",
    "Verif.Dupe.duplicates_not_transitive",
    "Verif.Dupe.displaced_for_nothing"
   ],
   "note": "Proved for all downloads without a hint (new ones). Refuted for urls which are downloaded again (copy_missed_on_redownload); displaced_for_nothing shows what the missing transitivity leads to."
  },
  {
   "property": "C56",
   "status": "partial",
   "theorems": [
    "Verif.HistoryWork.cleanup_by_age_partial",
    "Verif.HistoryWork.keep_history_overflow",
    "Verif.HistoryWork.hidden_keeps_result",
    "Verif.HistoryWork.good_hides_backups",
    "Verif.HistoryWork.good_ends_search",
    "Verif.HistoryWork.bad_returns_best"
   ],
   "note": "Everything is proved but the age for values of KeepHistory above 24855 days, for which it is refuted."
  },
  {
   "property": "C57",
   "status": "partial",
   "theorems": [
    "Verif.WildMask.refs_without_star_partial",
    "Verif.WildMask.refs_of_stars_partial",
    "Verif.WildMask.reference_text_partial",
    "Verif.WildMask.references_wrong",
    "Verif.WildMask.empty_reference_wrong"
   ],
   "note": "Proved for masks without stars and for masks with stars only; refuted for masks which mix them, and for empty references."
  },
  {
   "property": "C58",
   "status": "proved",
   "theorems": [
    "Verif.FeedFilter.text_condition"
   ],
   "note": ""
  },
  {
   "property": "C59",
   "status": "partial",
   "theorems": [
    "Verif.FeedHistory.added_at_most_once_partial",
    "Verif.FeedHistory.huge_history_forgets",
    "Verif.FeedHistory.broken_feed_forgets",
    "Verif.FeedHistory.zero_history_forgets"
   ],
   "note": "Proved for every history with FeedHistory up to 24855 days in which the feed is parsed each time; refuted otherwise."
  },
  {
   "property": "C60",
   "status": "proved",
   "theorems": [
    "Verif.FeedHistory.retry_delay",
    "Verif.FeedHistory.fetched_when_due"
   ],
   "note": "For intervals whose number of seconds fits into int."
  },
  {
   "property": "C61",
   "status": "partial",
   "theorems": [
    "Verif.FeedHistory.fetch_adds_new_partial",
    "Verif.FeedHistory.backlog_after_broken_fetch",
    "Verif.FeedHistory.unfetched_feed_stops_cleanup"
   ],
   "note": "Each fetch is proved; the backlog is refuted if the first answer cannot be parsed."
  },
  {
   "property": "C62",
   "status": "partial",
   "theorems": [
    "Verif.FeedHistory.feeds_survive_restart_partial",
    "Verif.FeedHistory.long_url_forgotten",
    "Verif.FeedHistory.longer_url_undefined"
   ],
   "note": "Proved for urls up to 1022 bytes without line breaks; refuted for longer ones."
  },
  {
   "property": "C63",
   "status": "partial",
   "theorems": [
    "Verif.FeedHistory.fetched_reaches_queue_partial",
    "Verif.FeedHistory.crash_loses_item"
   ],
   "note": "Refuted; proved if the state is saved after the additions."
  },
  {
   "property": "C64",
   "status": "proved",
   "theorems": [
    "Verif.FeedFilter.buildKey_spec",
    "Verif.FeedFilter.appendKey_spec",
    "Verif.FeedFilter.same_film",
    "Verif.FeedFilter.same_episode"
   ],
   "note": "same_episode for seasons without a dash."
  },
  {
   "property": "C65",
   "status": "partial",
   "theorems": [
    "Verif.XmlText.xml_decode_safe_partial",
    "Verif.XmlText.remove_entities_safe_partial",
    "Verif.XmlText.ampersand_at_end_overruns",
    "Verif.XmlText.number_at_end_overruns",
    "Verif.XmlText.digits_after_reference_lost",
    "Verif.XmlText.att_overruns"
   ],
   "note": "Refuted for texts ending with a reference or an ampersand, proved for the others."
  },
  {
   "property": "C66",
   "status": "partial",
   "theorems": [
    "Verif.JsonText.string_value_found_partial",
    "Verif.JsonText.adjacent_escapes_cut",
    "Verif.JsonText.two_backslashes_extend"
   ],
   "note": "Proved for strings in which no short escape is directly followed by an escaped quote or backslash; refuted for others."
  },
  {
   "property": "C67",
   "status": "partial",
   "theorems": [
    "Verif.JsonText.json_decode_safe_partial",
    "Verif.JsonText.backslash_at_end_overruns"
   ],
   "note": "Proved for texts of complete elements, refuted for incomplete escapes at the end."
  },
  {
   "property": "C68",
   "status": "partial",
   "theorems": [
    "Verif.UrlText.url_decode_partial",
    "Verif.UrlText.percent_at_end_overruns",
    "Verif.UrlText.url_encode"
   ],
   "note": "Proved for correctly encoded texts, refuted for incomplete codes at the end."
  },
  {
   "property": "C69",
   "status": "partial",
   "theorems": [
    "Verif.UrlText.unquote_partial",
    "Verif.UrlText.quoted_pair_wrong",
    "Verif.UrlText.latin1_to_utf8",
    "Verif.UrlText.latin1_fits"
   ],
   "note": "Latin-1 proved; quoted names proved without backslashes and refuted with them."
  },
  {
   "property": "C70",
   "status": "partial",
   "theorems": [
    "Verif.UrlText.zone_partial",
    "Verif.UrlText.zone_half_hour_wrong"
   ],
   "note": "Proved for all zones but those less than an hour ahead, for which it is refuted."
  },
  {
   "property": "C71",
   "status": "partial",
   "theorems": [
    "Verif.WebAccess.requests_kept_apart_partial",
    "Verif.WebAccess.refused_content_executed",
    "Verif.WebAccess.nzbget_answered_twice",
    "Verif.WebAccess.empty_content_not_answered",
    "Verif.WebAccess.empty_url_undefined",
    "Verif.WebAccess.url_percent_undefined",
    "Verif.WebAccess.huge_content_undefined"
   ],
   "note": "Proved for proper requests of which none with content is refused; refuted for refused content, redirected, empty and incomplete urls, and content of no or maximal length."
  },
  {
   "property": "C72",
   "status": "partial",
   "theorems": [
    "Verif.Rpc.add_user_only_adds",
    "Verif.Rpc.restricted_never_saves",
    "Verif.Rpc.secrets_hidden_partial",
    "Verif.Rpc.multicall_shows_secrets",
    "Verif.Rpc.restricted_iff"
   ],
   "note": "Commands are proved for any request. The hidden options are proved for all calls but system.multicall, for which it is refuted. Other commands than config and loadconfig are taken not to show options."
  },
  {
   "property": "C73",
   "status": "partial",
   "theorems": [
    "Verif.Rpc.links_change_nothing_partial",
    "Verif.Rpc.jsonp_link_executes",
    "Verif.Rpc.jsonp_link_executes_all"
   ],
   "note": "Proved for all links but those of JSON-P, for which it is refuted."
  },
  {
   "property": "C74",
   "status": "proved",
   "theorems": [
    "Verif.Rpc.json_call",
    "Verif.Rpc.xml_call",
    "Verif.Rpc.get_call",
    "Verif.Rpc.means_unique",
    "Verif.Rpc.one_name_per_command"
   ],
   "note": "Requests with the usual beginning; names of letters, digits and underscores up to 97 characters."
  },
  {
   "property": "C75",
   "status": "partial",
   "theorems": [
    "Verif.FileName.dest_dir_inside_partial",
    "Verif.FileName.category_escapes",
    "Verif.FileName.empty_name_shares"
   ],
   "note": "Proved for categories without a part `..`; refuted with it and for empty names."
  },
  {
   "property": "C76",
   "status": "proved",
   "theorems": [
    "Verif.Repair.enough_is_unpaused",
    "Verif.Repair.not_enough"
   ],
   "note": "Sums of blocks are not limited to 32 bits."
  },
  {
   "property": "C77",
   "status": "partial",
   "theorems": [
    "Verif.Subject.name_in_quotes",
    "Verif.Subject.name_in_words",
    "Verif.Subject.words_exist",
    "Verif.Subject.strip_suffix",
    "Verif.Subject.name_is_part",
    "Verif.Subject.names_of_files",
    "Verif.Subject.subject_safe_partial",
    "Verif.Subject.short_subject_read_outside",
    "Verif.Subject.long_subject_read_outside"
   ],
   "note": "Reads within the buffer are proved for subjects of less than 1023 bytes which do not have one of three odd forms, and refuted for the others."
  },
  {
   "property": "C78",
   "status": "partial",
   "theorems": [
    "Verif.Subject.hashes_any_order_partial",
    "Verif.Subject.hashes_any_segments",
    "Verif.Subject.ignored_files",
    "Verif.Subject.same_name_order_matters"
   ],
   "note": "Proved for files with different names; refuted for two files with the same name."
  },
  {
   "property": "C79",
   "status": "partial",
   "theorems": [
    "Verif.PostJob.post_processing_ends",
    "Verif.PostJob.manual_parcheck_loops"
   ],
   "note": "Proved unless ParCheck was set to manual after a quick par-check of the same download; refuted in this case. One job is looked at, the other jobs can only delay it; each stage is assumed to end."
  },
  {
   "property": "C80",
   "status": "proved",
   "theorems": [
    "Verif.PostJob.failed_download_untouched",
    "Verif.PostJob.move_and_cleanup_only_good",
    "Verif.PostJob.par_status_found",
    "Verif.PostJob.forced_check_full"
   ],
   "note": "Results of stages are parameters."
  },
  {
   "property": "C81",
   "status": "partial",
   "theorems": [
    "Verif.PostJob.scripts_once_and_last",
    "Verif.PostJob.script_parcheck_lost"
   ],
   "note": "Once and last is proved; the request for a par-check by a script is refuted for every download."
  },
  {
   "property": "C82",
   "status": "partial",
   "theorems": [
    "Verif.PostJob.unpack_given_up_after_check",
    "Verif.PostJob.unpack_failure_without_attempt"
   ],
   "note": "The par-check is proved; that the unpackers have failed is refuted in one case."
  },
  {
   "property": "C83",
   "status": "partial",
   "theorems": [
    "Verif.PostQueue.post_queue_consistent_partial",
    "Verif.PostQueue.delete_between_stages_breaks",
    "Verif.PostQueue.delete_between_stages_reachable"
   ],
   "note": "Proved for all histories without a deletion in the moment between two stages; refuted for every such deletion."
  },
  {
   "property": "C84",
   "status": "partial",
   "theorems": [
    "Verif.PostQueue.strategy_limits_partial"
   ],
   "note": "For all histories without a deletion between two stages (which breaks the program, C83). Direct unpack is not counted as a stage, the counter of the program counts it."
  },
  {
   "property": "C85",
   "status": "partial",
   "theorems": [
    "Verif.PostQueue.next_has_highest_priority",
    "Verif.PostQueue.paused_starts_only_forced_partial"
   ],
   "note": "The order is proved for every queue; the pause for all histories without a deletion between two stages (C83)."
  },
  {
   "property": "C86",
   "status": "partial",
   "theorems": [
    "Verif.PostQueue.check_ends_partial"
   ],
   "note": "For all histories without a deletion between two stages (C83); at most 13 rounds for every download in the queue."
  },
  {
   "property": "C87",
   "status": "partial",
   "theorems": [
    "Verif.Files.move_overwrites_nothing",
    "Verif.Files.move_success_partial",
    "Verif.Files.move_failure_partial",
    "Verif.Files.copy_error_loses",
    "Verif.Files.hidden_failure_loses",
    "Verif.Files.directory_other_device"
   ],
   "note": "Nothing is overwritten in every case. Nothing is lost if copies between devices are complete and apart from files with a leading dot; both are refuted otherwise. What is inside of subdirectories is not modelled."
  },
  {
   "property": "C88",
   "status": "partial",
   "theorems": [
    "Verif.Files.unpack_failed_keeps",
    "Verif.Files.extracted_arrive_partial",
    "Verif.Files.other_files_stay",
    "Verif.Files.archives_stay",
    "Verif.Files.archives_deleted",
    "Verif.Files.extracted_safe_partial",
    "Verif.Files.extracted_archive_lost",
    "Verif.Files.extracted_names_collide",
    "Verif.Files.replaced_file_lost"
   ],
   "note": "That extracted files arrive is proved for valid names without a leading dot and complete copies, and refuted otherwise. The unpacker itself is not modelled."
  },
  {
   "property": "C89",
   "status": "proved",
   "theorems": [
    "Verif.FileExt.cleanup_deletes_listed",
    "Verif.FileExt.cleanup_reports",
    "Verif.FileExt.matchFileExt_iff"
   ],
   "note": "For every tree, list and set of files which can not be deleted."
  },
  {
   "property": "C90",
   "status": "partial",
   "theorems": [
    "Verif.Join.join_complete_partial",
    "Verif.Join.missing_fragment_detected",
    "Verif.Join.two_sets_joined",
    "Verif.Join.two_complete_sets_refused",
    "Verif.Join.join_write_error"
   ],
   "note": "Proved if the directory has split files of one set only; completeness also needs reads and writes without errors. Refuted otherwise."
  },
  {
   "property": "C91",
   "status": "partial",
   "theorems": [
    "Verif.Rar.volume3_read_as_written",
    "Verif.Rar.volume5_read_as_written",
    "Verif.Rar.reading_ends_partial",
    "Verif.Rar.reading_defined_partial",
    "Verif.Rar.endless_version_3",
    "Verif.Rar.endless_version_5",
    "Verif.Rar.long_number_undefined",
    "Verif.Rar.large_block_misread",
    "Verif.Rar.volume3_without_end_refused"
   ],
   "note": "Reading as written is proved for all volumes below 4 EiB with blocks which do not overflow the 32-bit sum. That reading ends is proved unless a block has a negative size, that it is defined unless a number has more than ten bytes; both are refuted otherwise. Encrypted headers are not modelled."
  },
  {
   "property": "C92",
   "status": "partial",
   "theorems": [
    "Verif.RarRename.rename_nothing_lost_partial",
    "Verif.RarRename.rename_others_untouched",
    "Verif.RarRename.sets_complete",
    "Verif.RarRename.archives_found",
    "Verif.RarRename.archives_named_partial",
    "Verif.RarRename.proper_new_iff",
    "Verif.RarRename.proper_old_iff",
    "Verif.RarRename.new_extension",
    "Verif.RarRename.old_extension",
    "Verif.RarRename.main_base",
    "Verif.RarRename.name_search_ends",
    "Verif.RarRename.second_directory_takes_files",
    "Verif.RarRename.single_archive_renamed",
    "Verif.RarRename.old_names_repeat"
   ],
   "note": "Nothing is lost: proved for all directories if old-style numbers are at most 14200. Names after the renaming: proved for the first directory and archives without common volumes; refuted for further directories."
  },
  {
   "property": "C93",
   "status": "partial",
   "theorems": [
    "Verif.Scan.processed_seen_before_partial",
    "Verif.Scan.unchanged_is_processed",
    "Verif.Scan.changed_is_processed"
   ],
   "note": "The second half is proved. The first half is refuted; proved is that the file was seen that long ago and that its size is the one seen last."
  },
  {
   "property": "C94",
   "status": "partial",
   "theorems": [
    "Verif.Scan.scan_loses_nothing",
    "Verif.Scan.each_nzb_once",
    "Verif.Scan.second_scan_adds_nothing",
    "Verif.Scan.scan_ends",
    "Verif.Scan.crash_before_save_loses",
    "Verif.Scan.unrenamable_added_again"
   ],
   "note": "Proved for one directory without scan-scripts and for all results of parsing; exactly once if renaming succeeds. The part about crashes and failed renaming is refuted."
  },
  {
   "property": "C95",
   "status": "partial",
   "theorems": [
    "Verif.ScanAdd.added_exactly_once_partial",
    "Verif.ScanAdd.added_with_own_parameters_partial",
    "Verif.ScanAdd.no_entry_after_return",
    "Verif.ScanAdd.scan_between_loses_parameters",
    "Verif.ScanAdd.equal_names_lose_a_file"
   ],
   "note": "Proved for all schedules of requests with different names, for the parameters also without periodic scans between two steps of a request; refuted otherwise."
  },
  {
   "property": "C96",
   "status": "partial",
   "theorems": [
    "Verif.ParRename.renaming_loses_nothing",
    "Verif.ParRename.all_kept_partial",
    "Verif.ParRename.bad_overwrites",
    "Verif.ParRename.missing_iff",
    "Verif.ParRename.recorded_described",
    "Verif.ParRename.described_recorded",
    "Verif.ParRename.gets_recorded_name",
    "Verif.ParRename.order_matters",
    "Verif.ParRename.others_untouched",
    "Verif.ParRename.directory_renamed",
    "Verif.ParRename.renaming_ends",
    "Verif.ParRename.nothing_renamed",
    "Verif.ParRename.proper_pars_kept",
    "Verif.ParRename.hidden_pars_renamed",
    "Verif.ParRename.isSplit_iff",
    "Verif.ParRename.fragment_kept",
    "Verif.ParRename.main_damaged",
    "Verif.ParRename.bad_renamed"
   ],
   "note": "That no file is overwritten is proved for all renamings except that of damaged par2-files to .bad, for which it is refuted. The reader of par2-packets (libpar2) and MD5 are functions in the model."
  },
  {
   "property": "C97",
   "status": "partial",
   "theorems": [
    "Verif.UrlFetch.limit_kept",
    "Verif.UrlFetch.next_is_best",
    "Verif.UrlFetch.one_fetch_per_url_partial",
    "Verif.UrlFetch.waits_or_fetched_partial",
    "Verif.UrlFetch.history_has_reason_partial",
    "Verif.UrlFetch.added_once_partial",
    "Verif.UrlFetch.removed_only_on_request_partial",
    "Verif.UrlFetch.deleted_not_added_partial",
    "Verif.UrlFetch.added_stays_added_partial",
    "Verif.UrlFetch.freed_while_fetching",
    "Verif.UrlFetch.deleted_is_added",
    "Verif.UrlFetch.again_is_deleted",
    "Verif.UrlFetch.final_delete_goes_to_history",
    "Verif.UrlFetch.restart_forgets_deletion",
    "Verif.UrlFetch.restart_stuck"
   ],
   "note": "The limit and the choice are proved for all schedules. The rest is proved for all schedules in which nobody acts between the two statements of a retry and the program does not end between the end of a download and its report; both are refuted otherwise."
  },
  {
   "property": "C98",
   "status": "partial",
   "theorems": [
    "Verif.HistoryRetry.retry_files",
    "Verif.HistoryRetry.retry_back",
    "Verif.HistoryRetry.retry_failed_all",
    "Verif.HistoryRetry.return_remaining",
    "Verif.HistoryRetry.retry_totals",
    "Verif.HistoryRetry.retry_out",
    "Verif.HistoryRetry.retry_keeps_done",
    "Verif.HistoryRetry.complete_recorded",
    "Verif.HistoryRetry.park_totals",
    "Verif.HistoryRetry.parked_return",
    "Verif.HistoryRetry.retry_progress_partial",
    "Verif.HistoryRetry.retry_stuck",
    "Verif.HistoryRetry.return_nothing",
    "Verif.HistoryRetry.return_refused",
    "Verif.HistoryRetry.parked_twice",
    "Verif.HistoryRetry.return_removes_other",
    "Verif.HistoryRetry.crash_counts_failed"
   ],
   "note": "What is fetched again, what is kept and the totals are proved for all downloads whose files have different names and whose stored states agree with themselves; the end of a file is proved to store such a state. Refuted: that a returned file has something to download, that it is not counted twice if parked while partly downloaded, and that no other file of the same name is removed."
  },
  {
   "property": "C99",
   "status": "partial",
   "theorems": [
    "Verif.OptStore.file_spec",
    "Verif.OptStore.valuesAfter_last",
    "Verif.OptStore.setOption_spec",
    "Verif.OptStore.setOption_plain",
    "Verif.OptStore.setOption_unknown",
    "Verif.OptStore.setOption_home",
    "Verif.OptStore.newName_iff",
    "Verif.OptStore.convertOld_modern",
    "Verif.OptStore.convertOld_renamed",
    "Verif.OptStore.convert_decode",
    "Verif.OptStore.convert_par",
    "Verif.OptStore.convert_buffer_size",
    "Verif.OptStore.convert_scripts",
    "Verif.OptStore.old_category_spelling",
    "Verif.OptStore.file_and_line_keep",
    "Verif.OptStore.shown_spec",
    "Verif.OptStore.one_byte_never_ends",
    "Verif.OptStore.one_line_cut",
    "Verif.OptStore.self_reference_never_ends",
    "Verif.OptStore.reference_renames"
   ],
   "note": "The meaning of the file is proved for files of at least two lines, all ended, whose references name options with values without a dollar sign; what is kept is proved for arbitrary bytes. Refuted: that reading ends for every file, and that the last character of a single line is not lost. Not modelled: the checks of the values afterwards."
  }
 ]
}