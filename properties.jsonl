{"id": "C01", "title": "Variable-length integers survive the wire", "statement": "Encoding any unsigned 64-bit value as a wire varint and decoding the bytes gives the same value back, consumes exactly the bytes written, and leaves whatever follows untouched; the encoding takes between 1 and 9 bytes.", "quantifier": "every 64-bit value and every sequence of bytes following it", "why_tests_cant": "2^64 values times arbitrary trailing data; the 9-byte boundary and sign extension in the 9th byte are single points in that space", "anchors": ["util/SerializationUtil.h:encodeVarU64", "util/SerializationUtil.h:decodeVarU64"]}
{"id": "C02", "title": "Signed integers survive the wire and out-of-range ones are refused", "statement": "Every signed 64-bit and 32-bit integer written with the zigzag or the non-negative encoding is read back equal; a reader never accepts a number outside the target type's range; the 16/32-bit fixed-width encodings round-trip for every non-negative value and reject negative ones.", "quantifier": "every signed integer of each width; every input byte string", "why_tests_cant": "the domain is 2^64 wide and the rejected inputs are arbitrary attacker-chosen bytes", "anchors": ["util/SerializationUtil.h:encodeZigZag", "util/SerializationUtil.h:decodeVarI64", "util/SerializationUtil.cpp:decodeInt32", "util/SerializationUtil.cpp:decodeInt64C", "util/SerializationUtil.cpp:decodeInt32C", "util/SerializationUtil.cpp:encodeInt32FixedLength", "util/SerializationUtil.cpp:decodeInt32FixedLength", "util/SerializationUtil.cpp:encodeInt16FixedLength", "util/SerializationUtil.cpp:decodeInt16FixedLength"]}
{"id": "C03", "title": "Encoders never write outside the space they were given", "statement": "Given a buffer of at least `max` bytes and a start position, an integer or string encoder changes no byte outside [start,max); it reports success exactly when the encoding fits, and on success the position advances by exactly the encoded length.", "quantifier": "every buffer, position, limit, and value, including limits in the middle of an encoding", "why_tests_cant": "memory-safety of every (position, limit, length) combination cannot be enumerated", "anchors": ["util/SerializationUtil.h:encodeVarU64", "util/SerializationUtil.cpp:encodeString", "util/SerializationUtil.cpp:encodeVarI64C"]}
{"id": "C04", "title": "Decoders are total and stay inside the received bytes", "statement": "For any received byte string a decoder returns either failure or a value, it never reads outside the range it was given, and what it leaves unread is a suffix of that range; a decoded string is a substring of the input.", "quantifier": "every byte string, well-formed or hostile", "why_tests_cant": "the input space is all byte strings", "anchors": ["util/SerializationUtil.h:decodeVarU64", "util/SerializationUtil.cpp:decodeString", "Protocol.cpp:decodeHeader", "Protocol.cpp:decodeSettings"]}
{"id": "C05", "title": "Block headers round-trip under every protocol version", "statement": "For every negotiated protocol version, a block header (file name, sequence id, block size, offset, file size, allocation status, previous sequence id) encoded by the sender is decoded by the receiver to the same values, for exactly the fields that version carries.", "quantifier": "every header with in-range fields and every protocol version", "why_tests_cant": "six version/flag regimes times unbounded names and integers", "anchors": ["Protocol.cpp:encodeHeader", "Protocol.cpp:decodeHeader", "SenderThread.cpp:sendOneByteSource"]}
{"id": "C06", "title": "A legal block header always fits the space reserved for it", "statement": "If the file name is at most PATH_MAX (4096) bytes, encoding the header into the reserved kMaxHeader bytes never fails, and the 16-bit length field holds the real length.", "quantifier": "every file name up to 4096 bytes and every 63-bit field value", "why_tests_cant": "needs the maximum over all field values at once", "anchors": ["Protocol.h:kMaxHeader", "SenderThread.cpp:sendOneByteSource", "Protocol.cpp:encodeHeader"]}
{"id": "C07", "title": "Checkpoints round-trip and fit their fixed-size message", "statement": "A list of checkpoints encoded by a receiver is decoded by the sender to the same checkpoints for every protocol version (fields the version lacks come back as defaults, 'connection never made progress' stays distinguishable); a single local checkpoint always fits the fixed message size both sides compute.", "quantifier": "every list of checkpoints and every protocol version", "why_tests_cant": "the pre-27 special case for -1 and four version regimes over unbounded values", "anchors": ["Protocol.cpp:encodeCheckpoints", "Protocol.cpp:decodeCheckpoints", "Protocol.cpp:getMaxLocalCheckpointLength", "ReceiverThread.cpp:sendLocalCheckpoint", "SenderThread.cpp:readLocalCheckPoint"]}
{"id": "C08", "title": "Transfer settings round-trip", "statement": "Timeouts, transfer id and option flags encoded in the settings message are decoded to the same values by the peer for every protocol version, for every flag combination that version carries.", "quantifier": "every settings value, transfer id and version", "why_tests_cant": "unbounded strings and integers in several version regimes", "anchors": ["Protocol.cpp:encodeSettings", "Protocol.cpp:decodeSettings", "Protocol.cpp:encodeVersion", "Protocol.cpp:decodeVersion"]}
{"id": "C09", "title": "Control messages round-trip and fit their fixed sizes", "statement": "DONE, SIZE, ABORT, CHUNKS, FOOTER and ENCRYPTION messages decode to what was encoded, and each always fits the fixed size the reader waits for.", "quantifier": "every field value", "why_tests_cant": "full integer ranges", "anchors": ["Protocol.cpp:encodeDone", "Protocol.cpp:decodeDone", "Protocol.cpp:encodeSize", "Protocol.cpp:decodeSize", "Protocol.cpp:encodeAbort", "Protocol.cpp:decodeAbort", "Protocol.cpp:encodeChunksCmd", "Protocol.cpp:decodeChunksCmd", "Protocol.cpp:encodeFooter", "Protocol.cpp:decodeFooter", "Protocol.cpp:encodeEncryptionSettings", "Protocol.cpp:decodeEncryptionSettings"]}
{"id": "C10", "title": "Lists of previously received chunks round-trip", "statement": "A list of per-file chunk records (name, id, size, received ranges) that is put in one message is decoded to the same list.", "quantifier": "every list of records", "why_tests_cant": "nested variable-length lists of unbounded content", "anchors": ["Protocol.cpp:encodeFileChunksInfo", "Protocol.cpp:decodeFileChunksInfo", "Protocol.cpp:encodeFileChunksInfoList", "Protocol.cpp:decodeFileChunksInfoList"]}
{"id": "C11", "title": "The chunk list reaches the sender complete and the exchange ends", "statement": "When a receiver that resumes a download sends its chunk list in buffer-sized messages, the exchange finishes after finitely many messages and the sender ends up with exactly the receiver's list (records too large for the buffer are skipped, as the code's comment says).", "quantifier": "every list of records and every buffer size", "why_tests_cant": "termination of the message loop over all lists and sizes; the failing boundary is one exact size", "anchors": ["Protocol.cpp:encodeFileChunksInfoList", "ReceiverThread.cpp:sendFileChunks", "SenderThread.cpp:readFileChunks"]}
{"id": "C12", "title": "Protocol negotiation converges on a version both sides speak", "statement": "For any two builds, negotiation either fails or both sides end with the same version, which is not above what either side supports, and a repeated negotiation does not change it.", "quantifier": "every pair of supported and requested versions", "why_tests_cant": "all pairs of versions including future ones", "anchors": ["Protocol.cpp:negotiateProtocol", "SenderThread.cpp:processVersionMismatch", "SenderThread.cpp:processAbortCmd", "ReceiverThread.cpp:processSettingsCmd"]}
{"id": "C13", "title": "Merging received ranges neither loses nor invents bytes", "statement": "After merging, the recorded ranges of a file cover exactly the same byte positions as before, are sorted and pairwise disjoint and non-adjacent.", "quantifier": "every list of ranges, in any order, overlapping or not", "why_tests_cant": "all finite sets of intervals", "anchors": ["Protocol.cpp:FileChunksInfo::mergeChunks", "Protocol.cpp:getTotalChunkSize"]}
{"id": "C14", "title": "Resuming sends exactly the missing bytes", "statement": "For a file of a given size and a set of already received ranges, the remaining ranges are exactly the byte positions of the file not yet received: no received byte is resent, no missing byte is skipped.", "quantifier": "every file size and every set of ranges", "why_tests_cant": "all sizes and interval sets; off-by-one errors sit at the ends of intervals", "anchors": ["Protocol.cpp:getRemainingChunks", "util/DirectorySourceQueue.cpp:createIntoQueueInternal"]}
{"id": "C15", "title": "Blocks tile the bytes to send", "statement": "The blocks enqueued for a file are pairwise disjoint, none longer than the block size, and together cover exactly the bytes to be sent (one empty block for an empty file).", "quantifier": "every file size, block size and set of received ranges", "why_tests_cant": "all size/block-size combinations including exact multiples", "anchors": ["util/DirectorySourceQueue.cpp:createIntoQueueInternal"]}
{"id": "C16", "title": "No block is lost or handed out twice by the source queue", "statement": "Under any history of enqueueing, handing out, returning after failure and giving up on blocks, every block is at each moment in exactly one place: waiting in the queue, held by one thread, or in the list of failed blocks.", "quantifier": "every sequence of queue operations by any number of threads", "why_tests_cant": "unbounded interleavings and retries", "anchors": ["util/DirectorySourceQueue.cpp:getNextSource", "util/DirectorySourceQueue.cpp:returnToQueue", "util/DirectorySourceQueue.cpp:createIntoQueueInternal"]}
{"id": "C17", "title": "Blocks are handed out in the documented priority order", "statement": "The queue hands out deletions first, then blocks with fewer failed attempts, then larger ones, then lower offsets; the ordering is a strict weak order so the heap is well defined and the block handed out is never worse than one left behind.", "quantifier": "every set of queued blocks", "why_tests_cant": "all triples of blocks (transitivity) and all queue contents", "anchors": ["util/DirectorySourceQueue.h:SourceComparator", "util/DirectorySourceQueue.cpp:getNextSource"]}
{"id": "C18", "title": "A checkpoint resumes exactly where the receiver stopped", "statement": "When an accepted checkpoint reports n received blocks and b bytes of the next one, the first n blocks stay acknowledged, exactly the others go back to the queue with file, id and end unchanged, and only the oldest of them is shortened, by exactly b bytes, provided the checkpoint names that block (protocol versions with block ids); a block in flight when another thread reports the dead connection is treated the same way.", "quantifier": "every list of sent blocks and every checkpoint consistent with it", "why_tests_cant": "all histories and cut points, including cuts at block boundaries and a shrunk block being cut again", "anchors": ["util/ThreadTransferHistory.cpp:setCheckpointAndReturnToQueue", "util/ThreadTransferHistory.cpp:markSourceAsFailed", "util/ThreadTransferHistory.cpp:validateCheckpoint"]}
{"id": "C19", "title": "Inconsistent checkpoints are refused without effect", "statement": "A checkpoint is refused exactly if it acknowledges more blocks than were sent, goes behind the last checkpoint, or repeats the last one with another byte count; a refused checkpoint changes neither the queue nor the record of acknowledged blocks.", "quantifier": "every history and every checkpoint, including hostile ones", "why_tests_cant": "arbitrary peers and orders of checkpoints", "anchors": ["util/ThreadTransferHistory.cpp:validateCheckpoint", "util/ThreadTransferHistory.cpp:setCheckpointAndReturnToQueue"]}
{"id": "C20", "title": "Blocks are conserved between queue, threads and acknowledged set", "statement": "Through any sequence of sends, local checkpoints, reconnects, global checkpoints and thread deaths, every block is exactly once either queued, in some thread's unacknowledged history, acknowledged, or failed; so a sender that drained the queue with everything acknowledged has delivered every block.", "quantifier": "every interleaving of sender threads and every pattern of connection failures", "why_tests_cant": "unbounded numbers of threads, blocks and failures", "anchors": ["util/ThreadTransferHistory.cpp", "util/DirectorySourceQueue.cpp", "SenderThread.cpp"]}
{"id": "C21", "title": "Retransmission stops when there is no progress", "statement": "A sender thread that keeps reconnecting without the receiver acknowledging anything new gives up after the configured number of attempts; any progress resets the count; no reconnect bypasses the count; the whole work of a thread is bounded by what it sends and by the commands of the receiver that ask it to go on; and the thread never fails an internal check or uses a missing socket.", "quantifier": "every pattern of connection failures", "why_tests_cant": "unbounded histories of reconnects", "anchors": ["SenderThread.cpp:readLocalCheckPoint", "SenderThread.cpp:connect", "util/ThreadTransferHistory.cpp:validateCheckpoint"]}
{"id": "C22", "title": "A sender report of success means everything was sent", "statement": "If the sender's final report says OK, the acknowledged bytes equal the discovered bytes, no directory failed and no file failed.", "quantifier": "every combination of thread results and file failures", "why_tests_cant": "all combinations of error codes across threads, files and directories", "anchors": ["Reporting.cpp:TransferReport::TransferReport", "Sender.cpp:finish"]}
{"id": "C23", "title": "A receiver report of success means everything was received", "statement": "If the receiver's final report says OK, the number of blocks and bytes received equals what the sender announced, and no thread saw an encryption failure.", "quantifier": "every combination of thread statistics", "why_tests_cant": "all combinations of counters and error codes over any number of threads", "anchors": ["Reporting.cpp:TransferReport::TransferReport(TransferStats&&)", "Reporting.cpp:TransferStats::operator+="]}
{"id": "C24", "title": "Combined error reporting is independent of thread order", "statement": "The overall error code of several threads is an error exactly when some thread had an error, and does not depend on the order in which results are combined; summed byte and block counters equal the sums.", "quantifier": "every list of per-thread results in every order", "why_tests_cant": "all permutations of all lists", "anchors": ["ErrorCodes.cpp:getMoreInterestingError", "Reporting.cpp:TransferStats::operator+="]}
{"id": "C25", "title": "Transfer log entries round-trip and always fit", "statement": "Every entry the receiver writes to the transfer log (header, file creation, resize, block write, invalidation) is parsed back to the same entry, and for names up to PATH_MAX encoding never fails.", "quantifier": "every entry with in-range fields", "why_tests_cant": "unbounded names and 63-bit integers", "anchors": ["util/TransferLogManager.cpp:LogEncoderDecoder"]}
{"id": "C26", "title": "A crash while writing the log loses only the tail", "statement": "If the log file is cut at any byte, parsing the remainder accepts exactly the entries that are completely present, discards the partial tail, and a subsequent append continues from a clean boundary.", "quantifier": "every log content and every cut position", "why_tests_cant": "every crash point", "anchors": ["util/TransferLogManager.cpp:parseLog", "util/TransferLogManager.cpp:truncateExtraBytesAtEnd"]}
{"id": "C27", "title": "Resuming never claims bytes that were not recorded", "statement": "The chunk list obtained from the log contains for each live file only ranges that were logged as written after the file's latest creation and not invalidated since; and it contains all of them.", "quantifier": "every sequence of logged operations", "why_tests_cant": "unbounded operation histories with id reuse, resize and invalidation", "anchors": ["util/TransferLogManager.cpp:LogParser"]}
{"id": "C28", "title": "Log compaction does not change what the log says", "statement": "Parsing the compacted log yields the same chunk list, the same configuration and the same sender address as parsing the original.", "quantifier": "every valid log", "why_tests_cant": "all logs", "anchors": ["util/TransferLogManager.cpp:compactLog"]}
{"id": "C29", "title": "Deletion mode removes only files the sender does not have", "statement": "In delete-extra-files mode the receiver is asked to delete exactly the files it reported that the sender did not find, each at most once.", "quantifier": "every pair of sender and receiver file sets", "why_tests_cant": "all set pairs; discovery errors", "anchors": ["util/DirectorySourceQueue.cpp:enqueueFilesToBeDeleted"]}
{"id": "C30", "title": "One-at-a-time sections admit one thread and are not lost", "statement": "A funnel lets at most one thread be inside at a time, lets nobody in after success, and after a failure lets exactly one next thread in; no thread sleeps forever once the section is done.", "quantifier": "every interleaving of any number of threads", "why_tests_cant": "unbounded interleavings, including failure at any point", "anchors": ["util/ThreadsController.cpp:Funnel"]}
{"id": "C31", "title": "Barriers release everybody exactly when everybody arrived or left", "statement": "No thread passes a barrier before every other thread has reached it or finished, and once all have, all are released.", "quantifier": "every interleaving and every pattern of thread exits", "why_tests_cant": "all interleavings", "anchors": ["util/ThreadsController.cpp:Barrier"]}
{"id": "C32", "title": "Run-once hooks run exactly once", "statement": "A start hook runs once, before any thread proceeds past it, and an end hook runs once, after the last thread arrived, for any interleaving.", "quantifier": "every interleaving of any number of threads", "why_tests_cant": "all interleavings", "anchors": ["util/ThreadsController.h:ExecuteOnceFunc"]}
{"id": "C33", "title": "The receiver says DONE only when nothing is outstanding", "statement": "A receiver thread tells its sender the transfer is done only when no other receiver thread is still receiving and every checkpoint produced by a failed connection has been handed to the sender through some thread.", "quantifier": "every interleaving of receiver threads, connection failures and checkpoints", "why_tests_cant": "all interleavings and failure patterns", "anchors": ["ReceiverThread.cpp:checkForFinishOrNewCheckpoints", "ReceiverThread.cpp:waitForFinishOrNewCheckpoint", "Receiver.cpp:getNewCheckpoints", "ReceiverThread.cpp:sendGlobalCheckpoint"]}
{"id": "C34", "title": "What the receiver parses does not depend on packet boundaries", "statement": "The commands and file data a receiver extracts from a connection depend only on the bytes the sender wrote, not on how the network splits them into reads.", "quantifier": "every byte stream and every fragmentation of it", "why_tests_cant": "every possible TCP segmentation", "anchors": ["ReceiverThread.cpp:readNextCmd", "ReceiverThread.cpp:processFileCmd", "ReceiverThread.cpp:readAtLeast", "ReceiverThread.cpp:readAtMost"]}
{"id": "C35", "title": "Encrypted streams decode to what was written whatever the I/O sizes", "statement": "With encryption, tags and periodic IV change on, the plaintext read equals the plaintext written for every way the writer splits its writes and the reader splits its reads; tags are expected exactly where they were put.", "quantifier": "every plaintext, every write split, every read split, every tag and IV interval", "why_tests_cant": "all pairs of chunkings and interval lengths; the failing points are exact multiples of the interval", "anchors": ["util/WdtSocket.cpp:encryptAndWriteWithTag", "util/WdtSocket.cpp:readAndDecryptWithTag", "util/WdtSocket.cpp:computeNextTagOffset", "util/WdtSocket.cpp:checkAndChangeEncryptionIv", "util/WdtSocket.cpp:checkAndChangeDecryptionIv"]}
{"id": "C36", "title": "Url escaping is reversible", "statement": "Un-escaping an escaped value gives the value back for every byte string, and escaped text contains no character that has a meaning in the url.", "quantifier": "every byte string", "why_tests_cant": "all byte strings", "anchors": ["WdtTransferRequest.cpp:WdtUri::escape", "WdtTransferRequest.cpp:WdtUri::unescape"]}
{"id": "C37", "title": "A connection url reproduces the request", "statement": "Parsing the url generated from a request yields a request equal to it (host, ports, transfer id, protocol version, encryption key, namespace, destination, options), for every valid request. A url of which a part cannot be understood is not accepted without an error.", "quantifier": "every request with valid fields", "why_tests_cant": "unbounded strings and port lists", "anchors": ["WdtTransferRequest.cpp:WdtUri::process", "WdtTransferRequest.cpp:WdtUri::generateUrl", "WdtTransferRequest.cpp:WdtTransferRequest", "WdtTransferRequest.cpp:serializePorts", "util/EncryptionUtils.cpp:unserialize"]}
{"id": "C38", "title": "Resource quotas are never exceeded", "statement": "However create and release calls interleave, the number of live senders (receivers) never exceeds the configured global and namespace limits while the limits stay fixed.", "quantifier": "every interleaving of create/release calls", "why_tests_cant": "all interleavings of unbounded histories", "anchors": ["WdtResourceController.cpp"]}
{"id": "C39", "title": "Resource accounting matches reality", "statement": "Once no call is in progress the reported number of senders (receivers) equals the number registered over all namespaces, so released capacity is always reusable.", "quantifier": "every interleaving of create, release, register and deregister calls", "why_tests_cant": "all interleavings", "anchors": ["WdtResourceController.cpp:createSender", "WdtResourceController.cpp:deRegisterWdtNamespace"]}
{"id": "C40", "title": "Average throttling holds at every return", "statement": "Whenever the throttler lets a caller continue, everything charged up to that call is at most the average rate times the time since start.", "quantifier": "every sequence of requests, sizes and times, by any number of threads", "why_tests_cant": "unbounded schedules of requests", "anchors": ["Throttler.cpp:calculateSleep", "Throttler.cpp:averageThrottler", "Throttler.cpp:limitInternal"]}
{"id": "C41", "title": "Peak throttling bounds bursts", "statement": "With a peak rate set (and no average limit) the amount admitted in any time window is at most the burst limit plus rate times the window plus the last request.", "quantifier": "every sequence of requests and times", "why_tests_cant": "unbounded schedules", "anchors": ["Throttler.cpp:calculateSleep"]}
{"id": "C42", "title": "Reading a block yields exactly its bytes", "statement": "Reading a block until finished returns, in order, exactly the file's bytes in [offset, offset+size), whatever amounts the operating system returns per read, with and without direct I/O; a file that became shorter yields an error, never wrong data.", "quantifier": "every file content, block, buffer size and pattern of short reads", "why_tests_cant": "every pattern of partial reads and alignments", "anchors": ["util/FileByteSource.cpp:read", "util/FileByteSource.cpp:advanceOffset"]}
{"id": "C43", "title": "Writing a block puts exactly its bytes in place", "statement": "After successful writes of a block, the file holds the written bytes at the block's offset and nothing else of the file changed, whatever partial writes and interruptions happened.", "quantifier": "every data, chunking and pattern of short writes", "why_tests_cant": "every pattern of partial writes", "anchors": ["util/FileWriter.cpp:write", "util/FileWriter.cpp:open"]}
{"id": "C44", "title": "A file is allocated once and nobody waits forever for it", "statement": "When several threads receive blocks of the same file, exactly one creates and sizes it before any other opens it, and every other thread proceeds once that is finished (or fails if it failed).", "quantifier": "every interleaving of any number of threads", "why_tests_cant": "all interleavings including wake-up races", "anchors": ["util/FileCreator.cpp:openForBlocks", "util/FileCreator.cpp:openForFirstBlock", "util/FileCreator.cpp:waitForAllocationFinish"]}
{"id": "C45", "title": "The destination equals the source however blocks arrive", "statement": "If every byte of every block of a file has been reported as written at least once (in any order, by any threads, with partial and repeated blocks), or was received by an earlier session and is not resent, the destination file content equals the source content.", "quantifier": "every file, block split, order and resend pattern", "why_tests_cant": "all orders and resend patterns", "anchors": ["util/DirectorySourceQueue.cpp:DirectorySourceQueue::createIntoQueueInternal", "util/FileCreator.cpp:FileCreator::openAndSetSize", "util/FileCreator.cpp:FileCreator::setFileSize", "util/FileWriter.cpp:FileWriter::write", "ReceiverThread.cpp:ReceiverThread::processFileCmd"]}
{"id": "C46", "title": "An application abort is never lost", "statement": "Once the application (or any reason other than a version mismatch) has set an abort code, later version-mismatch handling neither replaces nor clears it.", "quantifier": "every sequence of abort and clear calls", "why_tests_cant": "all interleavings", "anchors": ["WdtBase.cpp:abort", "WdtBase.cpp:clearAbort"]}
{"id": "C47", "title": "Received blocks are confirmed only after integrity checks", "statement": "With tag verification on, bytes are counted in checkpoints and in the transfer log only once a tag covering them was verified.", "quantifier": "every schedule of blocks and tags", "why_tests_cant": "all interleavings of block ends and tag positions", "anchors": ["ReceiverThread.cpp:markBlockVerified", "ReceiverThread.cpp:markReceivedBlocksVerified", "ReceiverThread.cpp:processFileCmd"]}
{"id": "C48", "title": "Files are created only below the destination directory", "statement": "Every path the receiver opens or deletes lies under its root directory.", "quantifier": "every file name a sender may send", "why_tests_cant": "arbitrary names", "anchors": ["util/FileCreator.cpp:getFullPath", "util/FileCreator.cpp:createFile", "util/FileCreator.cpp:openForBlocks"]}
{"id": "C49", "title": "Both sides agree whether a checksum follows each block", "statement": "For every pair of protocol versions that negotiation can end with and every sender thread, the sender thread appends a checksum footer to its blocks exactly when the receiver thread it talks to expects one.", "quantifier": "all initial and negotiated protocol versions, checksum option on/off, every sender thread whichever thread performed the version change", "why_tests_cant": "Depends on which of several threads wins the race to apply the negotiated version, and on version pairs that no single build can reproduce.", "anchors": ["SenderThread.cpp:SenderThread::processVersionMismatch", "SenderThread.cpp:SenderThread::setFooterType", "ReceiverThread.cpp:ReceiverThread::processSettingsCmd", "Protocol.cpp:Protocol::decodeSettings"]}
{"id": "C50", "title": "A peer cannot make wdt write outside its own buffers", "statement": "Whatever bytes the other end of a connection sends, the bytes wdt stores from the socket stay inside the buffer it allocated for them.", "quantifier": "all byte streams received from a (possibly faulty or hostile) peer", "why_tests_cant": "Ranges over all byte streams, including ones no wdt build produces.", "anchors": ["SenderThread.cpp:SenderThread::readFileChunks", "SenderThread.cpp:SenderThread::processErrCmd", "ReceiverThread.cpp:ReceiverThread::processFileCmd"]}
{"id": "C51", "title": "Different files never share a sequence id", "statement": "In one transfer, two blocks that carry the same sequence id belong to the same file, also when the transfer resumes from ids reported by the receiver (as long as the receiver's own report does not repeat an id).", "quantifier": "every interleaving of file discovery, arrival of the receiver's file list, and sending", "why_tests_cant": "Depends on the order in which the receiver's list arrives relative to discovery, for arbitrary file sets and reported ids.", "anchors": ["util/DirectorySourceQueue.cpp:createIntoQueueInternal", "util/DirectorySourceQueue.cpp:setPreviouslyReceivedChunks", "util/DirectorySourceQueue.cpp:enqueueFilesToBeDeleted"]}
{"id": "C52", "title": "Per-file and per-thread statistics always agree", "statement": "At every moment of a transfer the numbers of failed attempts, data bytes, effective data bytes and blocks summed over all blocks equal the same sums over all sender threads.", "quantifier": "every schedule of sender threads, every pattern of failures, checkpoints, global checkpoints and failed opens", "why_tests_cant": "the accounting is updated in a dozen places by concurrent threads and corrected on every failure; a test sees a few histories", "anchors": ["Sender.cpp:validateTransferStats", "util/ThreadTransferHistory.cpp:markSourceAsFailed", "SenderThread.cpp:sendBlocks"]}
{"id": "C53", "title": "Finishing a transfer always yields a report", "statement": "Once all sender threads have ended, finish() with full reporting passes all its internal checks and returns a report, whatever happened during the transfer.", "quantifier": "every history of the transfer, successful or not", "why_tests_cant": "the checks depend on the whole history; needs every combination of partial checkpoints and deaths", "anchors": ["Sender.cpp:finish", "util/ThreadTransferHistory.cpp:returnUnackedSourcesToQueue", "util/ThreadTransferHistory.cpp:popAckedSourceStats"]}
{"id": "C54", "title": "A log the receiver wrote is accepted when resuming", "statement": "Resuming accepts every transfer log that receivers wrote, whatever has since happened to files in the destination directory: files that are missing or too small are dropped from the chunk list, all other recorded progress is kept.", "quantifier": "every sequence of entries that makes sense one after the other, every state of the disk", "why_tests_cant": "needs every interleaving of creations, resizes, invalidations, id reuse and lost files", "anchors": ["util/TransferLogManager.cpp:processFileResizeEntry", "util/TransferLogManager.cpp:processFileInvalidationEntry", "util/TransferLogManager.cpp:parseLog"]}
{"id": "C55", "title": "Encrypted data behind a tag is delivered only if the tag is right", "statement": "Whatever bytes arrive on an encrypted connection (altered, dropped, repeated or inserted by anybody), a read never delivers a byte that lies behind a tag position unless the tag that arrived there is the tag of all the ciphertext that arrived before it under the vector in use.", "quantifier": "every byte stream that arrives, every cipher, every tag and IV interval, every sequence of read sizes, every pattern of short reads and timeouts", "why_tests_cant": "tests send a few tampered streams; the claim is about all streams and all ways to cut them into reads", "anchors": ["util/WdtSocket.cpp:readAndDecryptWithTag", "util/WdtSocket.cpp:readEncryptionTag", "util/WdtSocket.cpp:checkAndChangeDecryptionIv", "util/WdtSocket.cpp:readWithTimeout"]}
{"id": "C56", "title": "A receiver with a secret reads only what was encrypted with it", "statement": "A receiver configured with encryption delivers what a peer with the same secret wrote, for every split of writes and reads, and nothing that arrives in the clear; a connection by a peer without the secret does not affect later connections.", "quantifier": "every stream, every secret type, every tag interval, every split of writes and reads, every sequence of connections", "why_tests_cant": "the test suite only runs matching peers; the failing case is a peer that was never written", "anchors": ["util/WdtSocket.cpp:readEncryptionSettingsOnce", "util/WdtSocket.cpp:writeEncryptionSettingsOnce", "util/WdtSocket.cpp:readWithTimeout", "util/WdtSocket.cpp:closeConnectionInternal", "util/ServerSocket.cpp:ServerSocket"]}
{"id": "C57", "title": "A finished send or receive leaves no slot taken", "statement": "When wdtSend returns, no sender is registered that was not registered before, so a failed transfer never uses up quota or blocks a retry.", "quantifier": "every controller state, request, initialisation result and transfer result", "why_tests_cant": "all histories and all failure points; the failing initialisation path needs a bad request", "anchors": ["Wdt.cpp:wdtSend", "Wdt.cpp:createWdtSender", "Wdt.cpp:wdtReceiveStart", "WdtResourceController.cpp:createSender"]}
{"id": "C58", "title": "Directories are made before files", "statement": "When the receiver has created a file, every directory above it in the transfer had been made or found before the file was opened, whatever directories earlier files needed and whatever calls failed and were retried.", "quantifier": "every file name that passes the checks, every set of directories known from earlier files, every outcome of the system calls", "why_tests_cant": "all names and all histories of the cache of directories", "anchors": ["util/FileCreator.cpp:createDirRecursively", "util/FileCreator.cpp:createFile"]}
{"id": "C59", "title": "After a version mismatch all threads of a sender continue with one version", "statement": "When receivers ask a multi-threaded sender for an older protocol version, then whatever the order in which the sender threads run and whichever of them heard it, all threads that keep transferring use one version, and it is one that a receiver named and none contradicted; the threads never wait for each other for ever, and with receivers that name a usable version no internal check of the sender fails.", "quantifier": "all numbers of sender threads, all interleavings of their steps, all answers of receivers, all aborts by the application at any time", "why_tests_cant": "The race between threads that find the mismatch, threads that are just ending and threads that learn of it only through the abort code has unboundedly many interleavings.", "anchors": ["SenderThread.cpp:SenderThread::processVersionMismatch", "SenderThread.cpp:SenderThread::processAbortCmd", "SenderThread.cpp:SenderThread::start", "WdtBase.cpp:WdtBase::abort", "WdtBase.cpp:WdtBase::clearAbort", "util/ThreadsController.cpp:Barrier::execute", "util/ThreadsController.cpp:Funnel::getStatus"]}
{"id": "C60", "title": "Discovery finds exactly the wanted files of a tree", "statement": "Given a directory, the files taken up for transfer are exactly the regular files below it that the include and exclude patterns want and that are not below a pruned directory: each once, under its path relative to the directory, with its size; a directory that cannot be read does not disturb this for the rest of the tree, and an error is noted exactly if something could not be read.  In a finite tree discovery ends.", "quantifier": "all directory trees, all answers of opendir, readdir and lstat including failures and file systems that do not tell the type of an entry, all patterns", "why_tests_cant": "Trees and combinations of failures and patterns are unbounded; a test covers one tree.", "anchors": ["util/DirectorySourceQueue.cpp:explore", "util/DirectorySourceQueue.cpp:resolvePath"]}
{"id": "C61", "title": "Symbolic links cannot keep discovery from ending", "statement": "With following of symbolic links on, discovery of a finite file system ends although links may lead in circles, and every file taken up is really there, reachable through directories that are not pruned.", "quantifier": "all finite file systems with any links, all answers of the system calls, all patterns", "why_tests_cant": "Cycles through links of any shape and length, and all orders of directory entries.", "anchors": ["util/DirectorySourceQueue.cpp:explore", "util/DirectorySourceQueue.cpp:resolvePath"]}
{"id": "C62", "title": "What discovery could not read is reported", "statement": "If a part of the source directory could not be read or was skipped because of an error, the sender's final report is not OK.", "quantifier": "all directory trees, all failures of system calls, all outcomes of the transfer of the files that were found", "why_tests_cant": "Depends on which of unboundedly many calls fails, and on the report for every outcome of the transfer.", "anchors": ["util/DirectorySourceQueue.cpp:explore", "util/DirectorySourceQueue.cpp:resolvePath", "Sender.cpp:start", "util/DirectorySourceQueue.cpp:buildQueueSynchronously", "Reporting.cpp:TransferReport"]}
{"id": "C63", "title": "Files that the source still has are not deleted at the destination", "statement": "When extra files at the destination are deleted, a file is deleted only if the source does not have it; and files are deleted only if that was asked for.", "quantifier": "all trees, all lists of files the receiver reports, all orders of discovery, arrival of the list and sending, all failures during discovery, all settings", "why_tests_cant": "All interleavings of discovery with the arrival of the list, and all failures during discovery.", "anchors": ["util/DirectorySourceQueue.cpp:enqueueFilesToBeDeleted", "util/DirectorySourceQueue.cpp:buildQueueSynchronously", "util/DirectorySourceQueue.cpp:explore", "Sender.cpp:start"]}
{"id": "C64", "title": "A list of files is sent as given or failure is reported", "statement": "If the application gives a list of files, and possibly a generator of further lists, and the final report is OK, then all files of all lists were taken up in order, under their names, with the sizes given or else those on disk.  Otherwise those up to the first that does not exist were taken up, and that one is recorded as failed.", "quantifier": "all lists, any number of generated lists, all outcomes of stat", "why_tests_cant": "All lists and all positions of a missing file.", "anchors": ["util/DirectorySourceQueue.cpp:enqueueFiles", "util/DirectorySourceQueue.cpp:buildQueueSynchronously"]}
{"id": "C65", "title": "A restarted receiver offers only what this transfer recorded", "statement": "However many receiver processes used the directory before, for whatever transfers and senders, and however they ended: a receiver that verifies the sender's address tells a connecting sender that it has a part of a file only if the file is on disk with the size it tells, and the creation of the file and afterwards every byte of the part were recorded in sessions with the same recovery id, the same configuration and the same sender address.", "quantifier": "all histories: any number of processes, transfers, senders, entries and compactions, with the process killed at any point and every write to the log cut short at any byte", "why_tests_cant": "Histories are unbounded and every write may be cut at every byte; a test plays one history.", "anchors": ["util/TransferLogManager.cpp:parseVerifyAndFix", "util/TransferLogManager.cpp:invalidateDirectory", "util/TransferLogManager.cpp:writeLogHeader", "util/TransferLogManager.cpp:verifySenderIp", "util/TransferLogManager.cpp:threadProcWriteEntriesToDisk", "util/TransferLogManager.cpp:compactLog", "Receiver.cpp:addTransferLogHeader", "Receiver.cpp:fixAndCloseTransferLog", "Receiver.cpp:startNewGlobalSession"]}
{"id": "C66", "title": "Offered blocks were not overwritten by someone else", "statement": "If a receiver tells a connecting sender that it has a part of a file, then whatever was written to disk since the file was created was written in the session that created it or by resuming sessions of this transfer with this sender.", "quantifier": "all histories as in C65, with other senders and transfers writing to the directory in between", "why_tests_cant": "Needs all interleavings of sessions of different senders with crashes; the failing histories need a log that is refused in one session and accepted in a later one, or a crash between two threads of one session.", "anchors": ["util/TransferLogManager.cpp:parseVerifyAndFix", "util/TransferLogManager.cpp:invalidateDirectory", "util/TransferLogManager.cpp:writeLogHeader", "util/TransferLogManager.cpp:verifySenderIp", "util/TransferLogManager.cpp:threadProcWriteEntriesToDisk", "util/TransferLogManager.cpp:compactLog", "Receiver.cpp:addTransferLogHeader", "Receiver.cpp:fixAndCloseTransferLog", "Receiver.cpp:startNewGlobalSession", "ReceiverThread.cpp:processFileCmd", "ReceiverThread.cpp:sendFileChunks"]}
{"id": "C67", "title": "Size based resumption offers files only over in-order data of the same transfer", "statement": "A receiver that resumes by file sizes offers the files it finds to a connecting sender only if all data written to the directory since the last successful transfer was written for the same recovery id, under the same configuration (without preallocation), from the same sender address, by senders that were resuming and sent whole files instead of blocks.", "quantifier": "all histories: any number of receiver processes in either resumption mode, any senders, any crash points, every write to the log cut short at any byte", "why_tests_cant": "Depends on what every earlier process, of any transfer and mode, left in the log and on where it died.", "anchors": ["Receiver.cpp:addTransferLogHeader", "Receiver.cpp:fixAndCloseTransferLog", "Receiver.cpp:startNewGlobalSession", "Receiver.cpp:traverseDestinationDir", "util/TransferLogManager.cpp:parseVerifyAndFix", "util/TransferLogManager.cpp:invalidateDirectory", "util/TransferLogManager.cpp:writeLogHeader"]}
{"id": "C68", "title": "Ending a transfer does not crash the receiver", "statement": "When a transfer ends, successfully or not, closing the transfer log does not end the receiver process in a failed check.", "quantifier": "all histories as in C67, any state of the log at the end of the transfer", "why_tests_cant": "The check fails only for combinations of the log left by earlier transfers, the kind of sender and failed writes.", "anchors": ["Receiver.cpp:fixAndCloseTransferLog", "Receiver.cpp:finish", "Receiver.cpp:addTransferLogHeader", "util/TransferLogManager.cpp:closeLog"]}
{"id": "C69", "title": "Work recorded before a crash is offered to the sender that comes back", "statement": "If a receiver process dies after blocks of a file were recorded and the log was written out, the next process, for the same recovery id and configuration, offers these blocks to the same sender, provided it accepts the log and the file is on disk.", "quantifier": "all histories before, any files and blocks recorded in the session, any crash point after the log was written out, every earlier write to the log cut short at any byte", "why_tests_cant": "Whether recording takes effect depends on the log left by earlier transfers and sessions.", "anchors": ["Receiver.cpp:addTransferLogHeader", "Receiver.cpp:startNewGlobalSession", "util/TransferLogManager.cpp:startThread", "util/TransferLogManager.cpp:parseVerifyAndFix", "util/TransferLogManager.cpp:addBlockWriteEntry", "util/TransferLogManager.cpp:threadProcWriteEntriesToDisk"]}
{"id": "C70", "title": "A successful report means that everything has arrived", "statement": "If a transfer ends and the sender reports success, every byte of every discovered file has been written by the receiver, and the receiver has seen the header of every empty file.", "quantifier": "all files, any number of ports and threads, any order of the steps of all threads on both sides, any number of broken and new connections at any moment, failing receiver and sender threads, files that cannot be opened, with and without checksums and encryption tags", "why_tests_cant": "Loss needs a particular interleaving of several threads on two machines with connections that break at particular bytes.", "anchors": ["SenderThread.cpp:sendBlocks", "SenderThread.cpp:processErrCmd", "SenderThread.cpp:processDoneCmd", "util/ThreadTransferHistory.cpp:setGlobalCheckpoint", "util/ThreadTransferHistory.cpp:validateCheckpoint", "util/DirectorySourceQueue.cpp:getNextSource", "ReceiverThread.cpp:processFileCmd", "ReceiverThread.cpp:sendLocalCheckpoint", "ReceiverThread.cpp:checkForFinishOrNewCheckpoints", "ReceiverThread.cpp:finishWithError", "Sender.cpp:finish"]}
{"id": "C71", "title": "Sender threads never block each other", "statement": "A sender thread that has been told that another connection's receiver thread failed waits for the sender thread of that connection to exit. Such threads never wait for each other in a circle, and at every moment of a transfer the sender can end all its threads without any further help from the receiver or the network; on the way no check fails and nothing undefined happens.", "quantifier": "all files, any number of ports, any order of the steps of all threads on both sides, any number of broken connections and failing threads, every reachable state", "why_tests_cant": "A circle of waiting threads would need several receiver threads that fail at the same time in an unlucky order; a test that does not hang shows nothing about the other orders.", "anchors": ["SenderThread.cpp:processErrCmd", "util/ThreadTransferHistory.cpp:setGlobalCheckpoint", "util/ThreadTransferHistory.cpp:markNotInUse", "ReceiverThread.cpp:sendGlobalCheckpoint", "ReceiverThread.cpp:finishWithError", "Receiver.cpp:getNewCheckpoints"]}
{"id": "C72", "title": "After a successful report the destination files equal the source files", "statement": "When a sender reports success, every file that it found and that does not change meanwhile is at the destination with exactly the same contents: no byte missing, wrong, or left over from an older version. This also holds for empty files, for files whose blocks went over several connections or were sent again after a break, and for files of which an earlier session had received a part.", "quantifier": "all sets of files and contents, all block sizes, any number of ports, any list that the receiver gives of what it has, any order of the steps of all threads on both sides, any number of broken connections, any division of the data into buffers and write calls, any earlier contents of the destination", "why_tests_cant": "Needs all the parts together: discovery, division into blocks, history, checkpoints, file creation, writes. A test compares a few directories after a few lucky or unlucky schedules.", "anchors": ["Sender.cpp:finish", "util/DirectorySourceQueue.cpp:createIntoQueueInternal", "SenderThread.cpp", "ReceiverThread.cpp:processFileCmd", "util/FileCreator.cpp:openAndSetSize", "util/FileWriter.cpp:write", "util/ThreadTransferHistory.cpp"]}
{"id": "C73", "title": "No sender thread sleeps for ever", "statement": "A sender thread that has nothing to send sleeps until there is something, or until it is certain that nothing more will come. It is never forgotten: while a thread sleeps, blocks in the queue are taken by other threads or it is woken for them, and once all files are discovered every sleeping thread leaves the queue without help from the discovery thread, from threads that are sending, or from spurious wake-ups.", "quantifier": "any number of threads, any files, any order of the steps of sender threads and discovery, any number of blocks put back at any time (also between the end of discovery and the notification), any choice of the thread that a notification wakes", "why_tests_cant": "A lost wake-up needs a rare interleaving of a notification with a thread that goes to sleep or takes the block first; the test that does not hang shows nothing about the others.", "anchors": ["util/DirectorySourceQueue.cpp:getNextSource", "util/DirectorySourceQueue.cpp:smartNotify", "util/DirectorySourceQueue.cpp:returnToQueue", "util/DirectorySourceQueue.cpp:buildQueueSynchronously", "util/DirectorySourceQueue.cpp:enqueueFilesToBeDeleted"]}
{"id": "C74", "title": "Batches of files are sent one after the other", "statement": "When a request has a generator of file lists, the generator is asked for the next list only when no block of the lists before is left in the queue or in the hands of a thread that opens or sends it; and when all threads have nothing left to do it is asked.", "quantifier": "any number of threads and lists, any order of the steps of all threads, any number of threads that end early or put blocks back", "why_tests_cant": "The decision compares counters that change while it is made; whether a list can be asked for too early, or never, depends on the interleaving.", "anchors": ["Sender.cpp:getFilesFromFileInfoGenerator", "util/DirectorySourceQueue.cpp:waitForPreviousTransfer", "util/ThreadsController.cpp:numRunningThreads", "WdtTransferRequest.h:fileInfoGenerator", "SenderThread.cpp:processVersionMismatch"]}
{"id": "C75", "title": "The receiver ends when the sender is gone", "statement": "Once a transfer has begun, the receiver does not need the sender in order to end. If from some moment on no command and no connection comes from the sender any more, then every thread of the receiver does only a bounded number of further steps, except that a thread which waits for the others keeps looking at them, and until all threads have ended there is always a step that one of them takes by itself or because a timeout expires.", "quantifier": "any number of threads, any history of the transfer up to the moment the sender falls silent, any order of the steps of the threads afterwards, any result of writes to the dead connections", "why_tests_cant": "The sender can fall silent in any combination of states of the receiver's threads, which wait for each other; a test can cover a few of them, and that it ends in one order of steps says nothing about the others.", "anchors": ["ReceiverThread.cpp:waitForFinishOrNewCheckpoint", "ReceiverThread.cpp:checkForFinishOrNewCheckpoints", "ReceiverThread.cpp:acceptWithTimeout", "ReceiverThread.cpp:finishWithError", "util/ThreadsController.cpp:hasThreads"]}
{"id": "C76", "title": "Network operations keep to their timeouts and notice an abort", "statement": "Waiting for a connection, connecting, reading, writing and waiting for other threads each end: when what they wait for happens, when their timeout has expired (not earlier, and reads and writes at most one socket timeout later), or, if abort checks are on, at most one check interval after the abort. Reads and writes return the number of bytes moved, or an error only if there were none.", "quantifier": "all values of the timeouts and of the abort check interval, any time at which the peer reacts or the transfer is aborted (including never), any sequence of results of the system calls", "why_tests_cant": "It depends on the relation of several times to each other, including ones that never come; a test can wait only for a few of them.", "anchors": ["util/ServerSocket.cpp:acceptNextConnection", "util/ClientSocket.cpp:connect", "util/WdtSocket.cpp:ioWithAbortCheck", "util/WdtSocket.cpp:getEffectiveTimeout", "util/ThreadsController.cpp:ConditionGuardImpl::wait"]}
{"id": "C77", "title": "A receiver listens on one port, on all address families, and treats them fairly", "statement": "When listening succeeds, all listening sockets of a receiver thread are bound to the port that the thread reports (and puts into the connection URL); every address family that the system offers and that can be bound to this port is listened on, none twice; no other listening socket stays open, also when listening fails. If connections come on several addresses, each address gets its turn.", "quantifier": "any list of address families, any results of the system calls, static or automatically chosen ports; any number of addresses and any pattern of connections on them", "why_tests_cant": "Failures of bind for one of the families, and the order in which connections come on several addresses, are outside the control of a test.", "anchors": ["util/ServerSocket.cpp:listen", "util/ServerSocket.cpp:listenInternal", "util/ServerSocket.cpp:getSelectedPortAndNewAddress", "util/ServerSocket.cpp:acceptNextConnection", "util/ServerSocket.cpp:closeAllNoCheck"]}
{"id": "C78", "title": "A sender connects if one address of the destination accepts", "statement": "A sender thread connects to the receiver if any address of the destination host accepts the connection within the connect timeout. It makes at most max_retries attempts, and reports a connection only if it was made.", "quantifier": "any list of addresses with any reaction of each (refused at once or later, accepted, unanswered), all option values, any results of the attempts", "why_tests_cant": "Test hosts have one or two addresses that work; the reaction of unreachable ones depends on the network.", "anchors": ["util/ClientSocket.cpp:connect", "SenderThread.cpp:connectToReceiver", "SenderThread.cpp:connect"]}
{"id": "C79", "title": "A long-running receiver serves each transfer like its first", "statement": "A receiver that serves one transfer after another (runForever, -run_as_daemon) treats each of them as a newly started receiver would: what happened in earlier sessions, including sessions in which no sender came and sessions that failed, has no effect on which data a later transfer delivers, on its result or on whether it ends.", "quantifier": "any number of sessions, each with any execution of sender and receiver threads, any failures of connections and threads, any options of the senders", "why_tests_cant": "State that survives from one session to another matters only for particular pairs of executions, for instance a session in which nobody connected followed by an ordinary one; tests run a few successful sessions in a row.", "anchors": ["Receiver.cpp:start", "Receiver.cpp:endCurGlobalSession", "Receiver.cpp:addCheckpoint", "ReceiverThread.cpp:reset", "ReceiverThread.cpp:acceptFirstConnection", "ReceiverThread.cpp:finishWithError", "ReceiverThread.cpp:markReceivedBlocksVerified", "util/ThreadTransferHistory.cpp:setGlobalCheckpoint"]}
{"id": "C80", "title": "Options given by the user are honoured", "statement": "Every option that the user gives on the command line or by the API keeps its value whatever the option type; what the user leaves open gets the documented values of the type; giving start_port makes the receiver listen on consecutive ports from there; no combination of defaults makes the receiver fail a check.", "quantifier": "all option values, all option types, all sets of options given by the user", "why_tests_cant": "The result depends on which subset of the options was given in combination with the type; tests set a handful of combinations.", "anchors": ["WdtOptions.cpp:modifyOptions", "WdtOptions.cpp:changeOptionIfNotSpecified", "util/WdtFlags.cpp.inc:start_port", "util/ServerSocket.cpp:listenInternal", "Receiver.cpp:init"]}
{"id": "C81", "title": "The sizes asked for are the sizes used", "statement": "Files are split into blocks of the block size given by the user (block_size_mbytes), and the receiver is told whether they are; the buffer is at least as large as asked for and large enough for every header.", "quantifier": "all block sizes (rational numbers) and all buffer sizes", "why_tests_cant": "The option is a fraction while the queue uses whole megabytes, and rounding wraps only near the largest numbers; tests use 0, 1 and 16.", "anchors": ["util/WdtFlags.cpp.inc:block_size_mbytes", "Sender.cpp:init", "util/DirectorySourceQueue.h:setBlockSizeMbytes", "SenderThread.cpp:sendSettings", "WdtBase.cpp:checkAndUpdateBufferSize"]}
{"id": "C82", "title": "A manifest means the files it names", "statement": "The list of files read from a manifest is the list that was written, in its order, each with the size and the direct I/O setting given for it or their defaults; what the manifest does not say is not sent, and a manifest that cannot be read is an error.", "quantifier": "all lists of files and all texts", "why_tests_cant": "It is a statement about every text, including empty fields, empty lines and a missing newline at the end; no test reads a manifest.", "anchors": ["wdtCmdLine.cpp:readManifest", "wdtCmdLine.cpp:main", "WdtTransferRequest.h:WdtFileInfo"]}
{"id": "C83", "title": "A transfer with a working connection can be completed", "statement": "Whatever has gone wrong so far, as long as on one port both sides' threads are still running, the transfer can still be brought to an end in which the sender's thread succeeds, every thread of both sides has ended and all data of every file that could be opened is at the receiver. In particular connections that break, however often and wherever, never by themselves make a transfer impossible to complete.", "quantifier": "all numbers of ports, all executions of both sides up to any point, all breaks of connections and failures of threads", "why_tests_cant": "It says of every reachable state that some continuation succeeds; tests follow a few executions, and the states that are dead ends need particular breaks at particular bytes.", "anchors": ["SenderThread.cpp:connect", "SenderThread.cpp:readLocalCheckPoint", "SenderThread.cpp:processErrCmd", "util/ThreadTransferHistory.cpp:setLocalCheckpoint", "util/ThreadTransferHistory.cpp:validateCheckpoint", "ReceiverThread.cpp:acceptWithTimeout", "ReceiverThread.cpp:waitForFinishOrNewCheckpoint"]}
{"id": "C84", "title": "Setting up a sender or receiver either yields a usable request or says why not", "statement": "`init` of a sender or a receiver with any request never ends the program. It returns OK only if the request names everything the transfer needs (directory, ports, host, transfer id, a version the peer can speak); a receiver that returned OK listens on exactly the ports it lists, and one that returned FEWER_PORTS or an error says so; each thread that can listen somewhere does.", "quantifier": "all requests (including ones parsed from urls), all options of the receiver, all behaviours of the network and file system at start", "why_tests_cant": "Requests come from other programs and from urls; the number of combinations of fields, options and failing ports is unlimited and tests use well formed requests on free ports.", "anchors": ["Sender.cpp:init", "Receiver.cpp:init", "WdtBase.cpp:negotiateProtocol", "WdtBase.cpp:validateTransferRequest", "ReceiverThread.cpp:init", "util/ServerSocket.cpp:listen"]}
{"id": "C85", "title": "The connection url printed by a receiver leads the sender to it", "statement": "The connection url that a receiver prints after setting up can be read by a sender, which accepts it, connects to just the ports the receiver listens on, uses the same transfer id, key and options, and agrees with it on the protocol version in the first exchange.", "quantifier": "all receivers' requests and options, all host names, ids and keys, all pairs of versions of the two programs, all outcomes of listening", "why_tests_cant": "It relates two programs through a printed string for all combinations of fields; tests use one machine, one version and free ports.", "anchors": ["Receiver.cpp:init", "WdtTransferRequest.cpp:genWdtUrlWithSecret", "WdtTransferRequest.cpp:WdtTransferRequest", "Sender.cpp:init", "wdtCmdLine.cpp:main"]}
{"id": "C86", "title": "Calls on sender and receiver objects in any order", "statement": "The calls init, transferAsync, finish, getTransferReport on a sender or receiver can be made in any order and, where documented, from several threads and several times: the program does not crash, a transfer is started at most once, nothing is reported as successful that was not started, and after the transfer has ended every further call of finish says the same.", "quantifier": "all sequences of calls, all interleavings with the work of the threads, all outcomes of the transfer", "why_tests_cant": "Sequences of calls and interleavings are unlimited; tests call each function once, in the intended order.", "anchors": ["Sender.cpp:finish", "Sender.cpp:start", "Sender.cpp:getTransferReport", "Receiver.cpp:finish", "Receiver.cpp:start", "Receiver.cpp:transferAsync", "Receiver.cpp:runForever", "WdtBase.h:TransferStatus"]}
{"id": "C87", "title": "A transfer that was interrupted and resumed ends with files equal to the source", "statement": "With download resumption based on the transfer log, receiver processes may die at any moment, any number of times. Whenever a sender resumes, every range that the receiver says it has already holds the bytes of the source, and every file it lists is there with the size it says; once the sender has sent the rest and reports success every file at the destination equals the source.", "quantifier": "all histories of receiver processes over one directory (sessions with and without resumption, blocks in any order, files deleted in between), deaths at any moment, log writes cut at any byte, all files and block sizes, all interleavings of threads", "why_tests_cant": "A test kills a process at a few moments of one transfer; the claim is about contents of files after any sequence of deaths and sessions.", "anchors": ["Receiver.cpp:startNewGlobalSession", "Receiver.cpp:addTransferLogHeader", "ReceiverThread.cpp:processFileCmd", "ReceiverThread.cpp:markBlockVerified", "util/FileCreator.cpp:openAndSetSize", "util/TransferLogManager.cpp:parseVerifyAndFix", "util/DirectorySourceQueue.cpp:createIntoQueueInternal", "Protocol.cpp:encodeFileChunksInfoList"]}
{"id": "C88", "title": "What was recorded as received survives a loss of power", "statement": "With download resumption based on the transfer log, power may be lost at any moment, with the loss of anything that was not flushed to the device. When a sender resumes afterwards, every range that the receiver says it has holds the bytes of the source and every file it lists is there with the size it says. Once all blocks of a file have come, the file is equal to the source after a loss of power, or missing. This does not depend on the option fsync.", "quantifier": "all histories as in C87, with losses of power at any moment, any subset of the unflushed bytes lost or replaced by anything, any file missing or shortened", "why_tests_cant": "A test cannot lose power between two system calls, nor try all the states of a disk that this can leave.", "anchors": ["util/FileWriter.cpp:sync", "util/FileWriter.cpp:close", "ReceiverThread.cpp:processFileCmd", "ReceiverThread.cpp:markBlockVerified", "util/TransferLogManager.cpp:fsyncLog", "util/TransferLogManager.cpp:writeEntriesToDisk"]}
{"id": "C89", "title": "One transfer at a time to a destination", "statement": "An application calls wdtSend from several threads. While a transfer to a destination runs, another call for the same destination is refused, or, if it asks for that, aborts the running transfer and takes its place; two transfers to one destination never run with neither of them aborted, and no more senders work than the quota allows.", "quantifier": "all numbers of threads, all interleavings of their steps, all destinations, transfer ids and quotas, with calls of releaseStaleSenders and releaseWdtSender in between", "why_tests_cant": "The failures need a third call between two particular steps of two others.", "anchors": ["Wdt.cpp:createWdtSender", "Wdt.cpp:wdtSend", "Wdt.cpp:releaseWdtSender", "WdtResourceController.cpp:createSender", "WdtResourceController.cpp:releaseSender", "WdtResourceController.cpp:releaseStaleSenders"]}
{"id": "C90", "title": "Finishing one receive does not disturb another", "statement": "wdtReceiveFinish returns a result only when the transfer whose result it is has ended, and never destroys, and so aborts, a receiver whose transfer runs.", "quantifier": "all sequences and interleavings of wdtReceiveStart and wdtReceiveFinish under all names by any number of threads", "why_tests_cant": "Names are reused; the failure needs a new receiver between two steps of an old call.", "anchors": ["Wdt.cpp:wdtReceiveStart", "Wdt.cpp:wdtReceiveFinish", "WdtResourceController.cpp:releaseReceiver", "Receiver.cpp:~Receiver"]}
{"id": "C91", "title": "The program does what the command line says and its exit status says whether that succeeded", "statement": "The program wdt is a sender exactly if it is given a url, a destination or the argument -, otherwise a receiver. Its exit status is 0 exactly if it did without an error what it was to do: for a sender or a receiver in the foreground, if its report says success.", "quantifier": "all command lines, standard inputs and results of the parts", "why_tests_cant": "The number of combinations of flags and failures; the flag parser calls back into the program.", "anchors": ["wdtCmdLine.cpp:main", "wdtCmdLine.cpp:readManifest", "Wdt.cpp:wdtSend"]}
{"id": "C92", "title": "Transfers that share a throttler together keep to the average rate", "statement": "Several senders and receivers share one throttler. Over any time the bytes that all of them together send or receive are at most the average rate times the time since the first of the running transfers began, plus what one buffer and the headers of one block of each thread amount to. The throttler knows at each moment how many transfers use it.", "quantifier": "all numbers of transfers and threads, all interleavings of their steps, all file sizes, block sizes, rates and clocks", "why_tests_cant": "The bound is on the sum over all threads under every interleaving of charging, sleeping and sending; a test sees one schedule.", "anchors": ["SenderThread.cpp:sendOneByteSource", "ReceiverThread.cpp:processFileCmd", "Throttler.cpp:limit", "Throttler.cpp:startTransfer", "Throttler.cpp:endTransfer", "WdtResourceController.cpp:createSender", "Sender.cpp:endTransfer"]}
{"id": "C93", "title": "Performance statistics say what was measured", "statement": "With performance statistics on, the report at the end of a transfer shows for each kind of call the number of calls, the sum, minimum and maximum of their durations, the percentiles and a histogram, and these are the ones of the calls that all threads made.", "quantifier": "all numbers of threads, all sequences of calls of all kinds with all durations", "why_tests_cant": "The histogram, the ranks and merging must be right for all multisets of durations; a test has a few.", "anchors": ["Reporting.cpp:PerfStatReport::addPerfStat", "Reporting.cpp:PerfStatReport::operator+=", "Reporting.cpp:operator<<", "Reporting.h:PerfStatReport"]}
{"id": "C94", "title": "Files and sockets that wdt opens are closed exactly once, and no others", "statement": "In a process that runs any number of transfers next to an application with descriptors of its own, wdt never closes or uses a descriptor that is not open for the purpose at hand: none is closed twice, none of the application's or of another transfer's is closed, not even one the application passed in for a file. Once a sender, receiver or log is gone, no descriptor of it is open. A thread has at most one file and one connection open, and discovery opens ahead at most open_files_during_discovery files.", "quantifier": "all interleavings of the steps of all threads and of the application, all choices of free descriptor numbers by the system, all failures of opening, sizing, seeking, reading, writing, connecting, binding, accepting and locking", "why_tests_cant": "A second close is harmless unless another thread opened a file in between and got the number; a leak shows only after many failures of a certain kind.", "anchors": ["util/FileByteSource.cpp:open", "util/FileByteSource.cpp:close", "util/DirectorySourceQueue.cpp:createIntoQueue", "util/DirectorySourceQueue.cpp:~DirectorySourceQueue", "util/FileWriter.cpp:open", "util/FileCreator.cpp:openForBlocks", "util/ClientSocket.cpp:connect", "util/ServerSocket.cpp:listen", "util/ServerSocket.cpp:closeAllNoCheck", "util/WdtSocket.cpp:closeConnectionInternal", "util/TransferLogManager.cpp:openLog"]}
{"id": "C95", "title": "What the progress display and the printed report say", "statement": "While a sender runs, the percentage that is shown is between 0 and 100 and is 100 exactly when something was discovered and none of it is left to send; the line of the display has its closing bracket always in the same column, the bar is complete exactly at 100 percent and does not shrink when the percentage grows, and no remains of the line before are visible. A receiver shows 0 until the sender has announced how much there is. The printed report names only files that failed, each once, in order, at most ten, with the number of the others, and all of them if it says nothing of others; it says that all files failed only if no file was transferred, and the number of transferred files is that of the files that were sent without a failure.", "quantifier": "All histories of a sender with any number of threads, all moments at which the numbers are read, all percentages, numbers of files, texts of throughputs, all lists of failed files and directories", "why_tests_cant": "The numbers are read one after the other while other threads change them, so the outcome depends on the interleaving; and the text depends on all the numbers.", "anchors": ["Reporting.cpp:ProgressReporter::progress", "Reporting.cpp:ProgressReporter::displayProgress", "Reporting.cpp:operator<<(TransferReport)", "Reporting.cpp:TransferReport::TransferReport", "Sender.cpp:Sender::getTransferReport", "Sender.cpp:Sender::getGlobalTransferStats", "Receiver.cpp:Receiver::progressTracker"]}
{"id": "C96", "title": "Heart beats keep the sender patient and change nothing else", "statement": "With heart beats enabled, sender and receiver agree on whether they are used; a sender that waits for an answer gets a byte within its read timeout as long as the receiver passes a point of work at least every four fifths of that timeout, however long the work takes in all; and every message of the receiver (checkpoints, WAIT, DONE, ABORT with its reason) is understood exactly as it would be without heart beats.", "quantifier": "all sequences of receiver messages with any number of heart beats between them, all contents of messages and buffers, all sender states, all schedules of the receiver's work and all timeouts", "why_tests_cant": "Whether a heart beat lies unread in front of an abort, or an abort arrives just when heart beats are collected, depends on timing that a test does not control; patience is a statement about all schedules; the counter of milliseconds overflows only after 25 days.", "anchors": ["ReceiverThread.cpp: sendHeartBeat, sendLocalCheckpoint, sendGlobalCheckpoint, sendAbortCmd", "SenderThread.cpp: readHeartBeats, checkForAbort, readReceiverCmd, readAndVerifySpuriousCheckpoint, processErrCmd, processAbortCmd, readLocalCheckPoint, sendSettings", "Protocol.h: CMD_MAGIC", "Reporting.h: durationMillis"]}
{"id": "C97", "title": "An encrypted connection delivers what an unencrypted one delivers", "statement": "On an encrypted connection a receiver thread does what the sender's stream would make it do in the clear: it accepts the settings, writes exactly the blocks that were sent with their data, verifies the checksums and gets the sender's totals, whatever the encryption type, the tag and vector change intervals, the sizes of the sender's writes and the way the network cuts the encrypted bytes.", "quantifier": "all ciphers that decrypt what they encrypt, all tag and vector change intervals, all streams (settings, blocks, sizes, DONE), all ways to cut the stream into writes and the encrypted bytes into reads, all contents of the buffers", "why_tests_cant": "Positions of tags and vectors in the stream, of commands in the buffer and of read boundaries in the network interact; a test sees a few combinations, and the one that fails (a stream that ends where a tag is due) needs an exact length.", "anchors": ["ReceiverThread.cpp: readAtLeast, readAtMost, readNextCmd, processFileCmd", "util/WdtSocket.cpp: readWithTimeout, readAndDecryptWithTag, readEncryptionSettingsOnce, encryptAndWriteWithTag, writeEncryptionTag", "util/ServerSocket.cpp: read", "SenderThread.cpp: sendSettings, sendOneByteSource, sendDoneCmd, sendSizeCmd"]}
{"id": "C98", "title": "Without the secret nobody can make a receiver take what was not sent", "statement": "On an encrypted connection, whatever somebody without the secret changes, drops, repeats or inserts, a receiver thread does only what a stream sent by somebody with the secret makes it do: the files, names, sizes and data it accepts are the ones that were sent, in the order in which they were sent.", "quantifier": "all arrived byte streams, all ciphers, all tag and vector change intervals, all patterns of short reads and timeouts, all settings of the receiver", "why_tests_cant": "The claim is about every possible change of the bytes on the way; a test tries a few flipped bytes. The attacks that work need a change of the unprotected settings together with a change of the data, or a replay at a vector change.", "anchors": ["util/WdtSocket.cpp: readWithTimeout, readEncryptionSettingsOnce, readAndDecryptWithTag, checkAndChangeDecryptionIv", "util/EncryptionUtils.cpp: AESDecryptor::decrypt, verifyTag", "ReceiverThread.cpp: readNextCmd, processFileCmd, processSettingsCmd"]}
{"id": "C99", "title": "A connection may break at any byte, again and again, and the transfer still completes", "statement": "If a connection between a sender thread and its receiver thread breaks after any number of bytes, what the receiver has written to files is a beginning of what was sent, at the right places; the receiver's checkpoint says how much, the sender accepts it, and the next connections send exactly what is missing, so that one good connection in the end completes all files with the right contents.", "quantifier": "all sources (files or parts of files), all numbers of broken connections, all positions at which each breaks, all ways in which the network cuts the bytes, all orders in which sources are taken, with and without checksums, with and without encryption (for one connection)", "why_tests_cant": "A test breaks a connection at a few places; the claim is about every byte position of every connection, including positions inside headers, checksums and between commands, and about all sequences of such breaks.", "anchors": ["SenderThread.cpp: sendBlocks, sendOneByteSource, readLocalCheckPoint", "ReceiverThread.cpp: readNextCmd, processFileCmd, markBlockVerified, sendLocalCheckpoint", "util/ThreadTransferHistory.cpp: setLocalCheckpoint, validateCheckpoint", "util/DirectorySourceQueue.cpp: setPreviouslyReceivedChunks, returnToQueue"]}
{"id": "C100", "title": "Counters and histograms say what was recorded", "statement": "A counter or histogram reports the number, sum, smallest and greatest of the values recorded and the number in each range; percentiles lie between the smallest and the greatest value, grow with the percentage and are in the right range; merging two gives what recording everything in one would give; and with many threads that record while one reads, every value is reported exactly once.", "quantifier": "all lists of values, all scales and offsets, all percentages, all pairs of histograms, all interleavings of recording, starting, ending and reading threads", "why_tests_cant": "The ranges come from a table of 100000 entries computed at start, and percentiles interpolate in rational numbers: a test compares a few values. The loss of a value needs a thread that is stopped between reading the index and recording.", "anchors": ["util/Stats.cpp: Counter::record, Counter::merge, Histogram::record, Histogram::merge, Histogram::calcPercentile, initHistLookup", "util/Stats.h: Histogram, Hold2, ThreadLocalSwapableNode::readAndReset, ThreadLocalSwapableNode::process, SwapableNode::swap"]}
{"id": "C101", "title": "One object per application name, and its options are its own", "statement": "initializeWdt and getWdt give all callers of one application name the same initialised object until releaseWdt; a getWdt after initializeWdt has returned never ends the process; the options set through the reference are those, and the only ones, with which the transfers of that application are made and limited.", "quantifier": "all interleavings of initializeWdt, getWdt, releaseWdt, changes of options and creations of senders by any number of threads, names and namespaces", "why_tests_cant": "The outcomes depend on how the calls of several threads interleave and on everything that happened before to the same name, other names and namespaces; a test sees a few orders.", "anchors": ["Wdt.cpp: Wdt::initializeWdt, Wdt::initializeWdtInternal, Wdt::getWdt, Wdt::getWdtInternal, Wdt::releaseWdt, Wdt::Wdt", "Wdt.h: Wdt, Wdt::getWdtOptions", "WdtResourceController.cpp: WdtResourceController::createSender, WdtResourceController::hasSenderQuotaInternal, WdtNamespaceController::createSender, WdtNamespaceController::WdtNamespaceController"]}
{"id": "C102", "title": "An abort after a time limit comes neither early nor after the end, and the limit never delays the end", "statement": "With -abort_after_seconds n the program asks for the abort of a running transfer when n seconds have passed, never before, never if n is not positive, and never after the transfer has ended; and when a transfer ends earlier the process ends without waiting for the rest of the n seconds.", "quantifier": "all numbers of seconds, all interleavings of the main thread, the waiting thread and the clock, with spurious wake-ups at any time and the end of the transfer at any time", "why_tests_cant": "A lost wake-up needs the transfer to end between two particular steps of the other thread, and spurious wake-ups cannot be produced; a test runs a few transfers that end long before or long after the limit.", "anchors": ["wdtCmdLine.cpp: setupAbortChecker, setAbortChecker, cancelAbort, main", "AbortChecker.h: WdtAbortChecker"]}
{"id": "C103", "title": "The key of an encrypted transfer does not get into the log", "statement": "The messages that a receiver writes when it makes a key and tells its connection url, and that a sender writes when it reads the url, contain nothing of the key; only the url on the standard output does.", "quantifier": "all requests, keys and kinds of encryption, all hash functions of the standard library, all urls given to a sender, verbose logging on or off", "why_tests_cant": "That a text contains nothing of a secret relates all pairs of secrets; a test can only look for one key in the messages of one run, and would have to try every malformed url.", "anchors": ["WdtTransferRequest.cpp: process, unescape, getLogSafeString, generateUrlInternal", "util/EncryptionUtils.cpp: getLogSafeString, unserialize, EncryptionParams, generateEncryptionParams", "wdtCmdLine.cpp: main"]}
{"id": "C104", "title": "A progress reporter is told of the start, the progress and the end of a transfer, in this order", "statement": "A reporter that the application gives to a sender or receiver has start called before the transfer starts, then progress some number of times, then end; the calls never overlap and none comes after end. The current throughput in the reports is the number of bytes over the time since it was last computed, so that nothing is counted twice or left out, and is never negative or undefined; it is computed at least every throughput_update_interval. finish returns promptly when the transfer is over.", "quantifier": "all interleavings of the application's thread, the thread that reports and the threads that transfer, all values of the two intervals, all readings of the counters and the clock, wake-ups without reason, setting of the clock", "why_tests_cant": "The order of calls made by two threads, and a wake-up that is lost because the other thread does not wait at that moment, depend on the schedule; a test sees a few of them.", "anchors": ["Sender.cpp: start, finish, reportProgress", "Receiver.cpp: transferAsync, start, finish, progressTracker", "Reporting.h: ProgressReporter", "WdtBase.cpp: setTransferStatus"]}
{"id": "C105", "title": "Encrypted connections may break at any byte, again and again, and the transfer still completes", "statement": "When encrypted connections break, each after any number of bytes, in the middle of the encryption settings, of data, of authentication tags or of changes of the initialization vector, everything that was ever written to files at the destination is data of the right file at the right place, blocks that were not yet authenticated are sent again, and the first connection that does not break completes the transfer: every byte of every file is there and both sides agree on the number of blocks.", "quantifier": "all lists of sources, all numbers of broken connections, all positions of the breaks, all ciphers that decrypt what they encrypt, with and without tags, all tag intervals and intervals for new vectors, all numbers of blocks verified before the break, all divisions of the stream into writes and reads", "why_tests_cant": "The position of the break relative to tags, new vectors and blocks, and the history of earlier breaks, multiply; a test breaks a connection at a few positions.", "anchors": ["ReceiverThread.cpp: processFileCmd, markBlockVerified, markReceivedBlocksVerified, sendLocalCheckpoint", "SenderThread.cpp: readLocalCheckPoint, sendOneByteSource", "util/WdtSocket.cpp: read, write, readEncryptionSettingsOnce, encryptAndWrite", "util/ThreadTransferHistory.cpp: setCheckpointAndReturnToQueue"]}
{"id": "C106", "title": "Whatever bytes a peer sends, a receiver thread stays inside its buffer, ends and does not crash", "statement": "Anybody who can connect to a receiver can send it any bytes. Whatever these are, and however they arrive, the thread that serves the connection reads and writes only its own buffer, takes a bounded number of steps, and ends in one of its regular states instead of bringing the process down.", "quantifier": "all byte streams, all divisions into reads, all contents and sizes of the buffer, all transfer ids, all protocol versions, with and without checksums", "why_tests_cant": "A test sends well-formed streams or a few malformed ones; the accesses outside the buffer need a command at a certain distance from its end.", "anchors": ["ReceiverThread.cpp: readAtLeast, readNextCmd, processSettingsCmd, processFileCmd, processSizeCmd, processDoneCmd", "Protocol.h: kMinBufLength, kMaxSettings", "Protocol.cpp: decodeSettings, decodeHeader"]}
{"id": "C107", "title": "Whatever a receiver answers, the sender neither crashes nor reads for ever, and reports success only after DONE", "statement": "A sender may have connected to anything. Whatever bytes come back while it waits for the receiver's verdict, and however they arrive, the thread does not crash or leave its buffers, stops reading after a bounded number of steps, and ends without an error only if it was told DONE and the connection was then closed.", "quantifier": "all byte streams sent back, all numbers of bytes that arrive in time for each read, all protocol versions and ports, all states of a thread that reads commands, all contents of its buffer", "why_tests_cant": "Tests talk to the project's own receiver, which never sends the messages in question; the lengths and numbers that do harm are a set no sample of streams is sure to hit.", "anchors": ["SenderThread.cpp: readNextReceiverCmd, readReceiverCmd, processErrCmd, processAbortCmd, processWaitCmd, processDoneCmd, checkForAbort", "Protocol.cpp: decodeAbort, decodeCheckpoints"]}
{"id": "C108", "title": "The resource controller gives callers the transfer objects they made, one per name, until they release them", "statement": "A service keeps its senders and receivers in the resource controller under namespace and identifier. Looking one up gives exactly the object made under that name and not released since; the lists, counts and reports of stale objects name exactly those objects; creating under a free name gives a new object whenever there is room, that is fewer objects are alive than the limits set last for the process and the namespace allow, and never otherwise; creating under a name in use gives the object in use so that it can be aborted.", "quantifier": "all sequences of calls of all kinds on one controller, all namespaces and identifiers, all limits, all sets of stale objects", "why_tests_cant": "What a call returns depends on the whole history of calls; tests use a handful of histories with a few names, and none creates a name again when the limit is reached.", "anchors": ["WdtResourceController.cpp: createSender, createReceiver, releaseSender, releaseAllSenders, releaseStaleSenders, getSender, getAllSenders, getSendersIds, hasSenderQuota, getCounts, registerWdtNamespace, deRegisterWdtNamespace, shutdown", "WdtResourceController.h: WdtNamespaceController, WdtResourceController"]}
{"id": "C109", "title": "With checksums on, damage on the way is noticed and the damaged block is not confirmed", "statement": "A transfer runs with checksums on and without encryption. If what the sender sends of a block is damaged on the way within 32 consecutive bits, or in an odd number of bits anywhere in the block, the receiver takes everything sent before as it is, does not confirm the damaged block and gives up the connection with a checksum mismatch, so that the sender sends the block again. Where sender and receiver cut the data into buffers does not matter for the checksum.", "quantifier": "all blocks with all data, all damage of the two kinds, all items sent before and after, all splits of the bytes by the network, all contents of the buffers", "why_tests_cant": "A test damages some bytes of some file; that no damage of the two kinds collides in 32 bits is a statement about all data and all patterns of damage and needs the algebra of the polynomial.", "anchors": ["SenderThread.cpp: sendOneByteSource", "ReceiverThread.cpp: processFileCmd", "Protocol.cpp: encodeFooter, decodeFooter", "WdtOptions.h: enable_checksum"]}
{"id": "C110", "title": "With checksums on, connections may damage data and break, again and again, and the files still end up right", "statement": "A sender with checksums on sends files to a receiver. Every connection breaks after any number of bytes, or damages the data of a block on the way (within 32 consecutive bits, or an odd number of bits), delivers anything at all behind the checksum of that block, and breaks or does not. However often that happens, neither side crashes or refuses to go on, nothing is written outside the places of what is sent, and as soon as one connection works everything is at the destination: each byte of each file is the sender's, although damaged data had been written there, and both sides agree on the number of blocks.", "quantifier": "all sets of files and parts of files with all contents, all numbers and orders of connections, all places of breaks, all damage of the two kinds in any block, all bytes behind it, all splits of the bytes by the network", "why_tests_cant": "The damaged bytes stay on the disk until the block is sent again, so the claim is about all interleavings of damage, breaks, checkpoints and retransmission; a test injects one failure at a chosen place.", "anchors": ["SenderThread.cpp: readLocalCheckPoint, sendBlocks, sendOneByteSource, start", "ReceiverThread.cpp: processFileCmd, sendLocalCheckpoint, start", "util/ThreadTransferHistory.cpp: setCheckpointAndReturnToQueue"]}
{"id": "C111", "title": "A socket survives every failure and starts afresh after it", "statement": "Whatever the network and the cipher library do (short reads and writes, ends of file, errors, time-outs, garbage in place of the encryption settings, failing encryption calls, at any point of any connection), the calls that a thread makes on its socket never end the process in a check. When a read has failed otherwise than by a time-out, later reads on the connection fail and take nothing from it; when a write was not complete, later writes on it send nothing, so that the peer never gets data behind a gap. When the connection has been closed, the following connections behave as those of a new socket, except that encryption stays off once a peer without it has been accepted. No failure of the network or the cipher keeps the thread from connecting again; only encryption settings of the peer that were read and refused do.", "quantifier": "all sequences of connect, read, write, shutdown, end of stream and close calls in the order kept by the threads, all sizes, all ciphers, tag intervals and IV change intervals, all outcomes of every system call and OpenSSL call", "why_tests_cant": "The state of two cipher objects, two error codes, six flags and counters must fit at every point where something can fail; a test injects one failure at a time, and only a sequence of calls after it shows a wrong state.", "anchors": ["util/WdtSocket.cpp: read, readWithTimeout, readAndDecryptWithTag, checkAndChangeDecryptionIv, write, encryptAndWriteWithTag, checkAndChangeEncryptionIv, shutdownWrites, expectEndOfStream, closeConnectionInternal", "util/EncryptionUtils.cpp: AESEncryptor::start, AESEncryptor::finish, AESDecryptor::start, AESDecryptor::finish, AESDecryptor::verifyTag"]}
{"id": "C112", "title": "What was sent before the versions were agreed is sent again, all of it", "statement": "A sender begins to send before it knows whether the receiver speaks its protocol version. When the receiver asks for another version, every block that any thread has sent until then is again waiting to be sent, with all its bytes, next to those not yet sent; no byte counts as delivered because of that; and when the transfer is complete, every byte of every block was sent after the agreement or a checkpoint has claimed it. If the receiver has already acknowledged a block, the sender does not go on.", "quantifier": "all sets of files, all numbers of threads, all sequences of sends, failures, checkpoints and acknowledgements before and after, all orders in which the records of the threads are visited", "why_tests_cant": "Which blocks the threads have sent when the answer comes is a race; a block that is forgotten is missing only with receivers of another version, and only if it was under way at that moment.", "anchors": ["util/ThreadTransferHistory.cpp: TransferHistoryController::handleVersionMismatch, ThreadTransferHistory::returnUnackedSourcesToQueue", "SenderThread.cpp: SenderThread::processVersionMismatch"]}
{"id": "C113", "title": "The threads use their sockets only in ways that cannot crash", "statement": "Whatever its peer sends, whatever fails, and whenever the transfer is aborted or begins again with another protocol version, a sender thread never uses a socket it does not have, and a sender or receiver thread calls each socket in such an order (a connection is closed before the next; nothing is written after the end of writing; nothing is read after the expected end of stream; at least one byte at a time) that every call returns and none ends the process. Every socket a sender thread gives up has been closed. A receiver thread keeps this through any number of sessions.", "quantifier": "all paths through the states of the sender and the receiver thread, all protocol versions and buffer sizes, all lengths announced by the peer, all ciphers, all outcomes of every system call and OpenSSL call", "why_tests_cant": "The number of paths through the two state machines is unbounded, and a forbidden call occurs only after a particular failure in a particular state; a test follows one path.", "anchors": ["SenderThread.cpp: connect, connectToReceiver, readLocalCheckPoint, sendSettings, sendBlocks, sendOneByteSource, readHeartBeats, sendSizeCmd, sendDoneCmd, checkForAbort, readFileChunks, readReceiverCmd, readNextReceiverCmd, processDoneCmd, processErrCmd, processAbortCmd, processVersionMismatch, start", "ReceiverThread.cpp: readAtLeast, readAtMost, acceptFirstConnection, acceptWithTimeout, sendLocalCheckpoint, readNextCmd, processFileCmd, sendHeartBeat, sendFileChunks, sendGlobalCheckpoint, sendAbortCmd, sendDoneCmd, finishWithError, waitForFinishOrNewCheckpoint, start", "util/ClientSocket.cpp: ClientSocket::connect", "util/WdtSocket.cpp: WdtSocket::read, WdtSocket::write, WdtSocket::closeConnectionInternal"]}
{"id": "C114", "title": "Every connection has its own account of sent blocks, and waiting for a failed connection ends", "statement": "A sender keeps for every connection an account of the blocks sent over it. What happens on one connection does not touch the account of another, except that a checkpoint about a failed connection is applied to the account of exactly that connection; one that names a port without connection is ignored. A thread that was told of a failed connection goes on only after the thread of that connection has ended, and whatever ports the receiver names, the threads can always end and the sender delivers its report.", "quantifier": "all lists of ports, all numbers of threads, all interleavings of their steps, all checkpoints and all ports named by the receiver", "why_tests_cant": "The wait depends on the interleaving of all threads and on what the peer names; a test sees one schedule and cannot tell waiting long from waiting for ever.", "anchors": ["util/ThreadTransferHistory.cpp: TransferHistoryController::getTransferHistory, TransferHistoryController::addThreadHistory, TransferHistoryController::handleGlobalCheckpoint, ThreadTransferHistory::setGlobalCheckpoint, ThreadTransferHistory::markNotInUse", "SenderThread.h: SenderThread::SenderThread", "SenderThread.cpp: processErrCmd, start", "WdtTransferRequest.cpp: WdtTransferRequest::WdtTransferRequest, genPortsVector"]}
{"id": "C115", "title": "A transfer works with every buffer size the user may ask for", "statement": "Whatever number a user sets as buffer_size, every thread of a sender or receiver gets a buffer at least as large, less than one disk block larger than needed, in which all commands fit and from which files can be sent with direct I/O as well; the size makes no difference for what is sent and received, and the rate limits are those the user set, with a full buffer counted as one request. If there is not enough memory for a thread, that is reported as an error, nothing crashes, and the other threads do not wait for that thread for ever.", "quantifier": "all 32-bit values of the option, all numbers of threads, everything the memory allocator may answer and every old contents of the memory, all files and blocks, all byte streams", "why_tests_cant": "The sizes for which rounding matters, the old contents of memory and an allocator that fails for one thread only cannot be covered by running some sizes; the wait shows only on a machine short of memory, the crash close to the largest 32-bit number.", "anchors": ["WdtBase.cpp: checkAndUpdateBufferSize, configureThrottler", "WdtOptions.cpp: getThrottlerOptions", "util/CommonImpl.cpp: Buffer::Buffer, ThreadCtx::ThreadCtx", "WdtThread.h: WdtThread::WdtThread", "util/ThreadsController.h: makeThreads", "Receiver.cpp: init", "Sender.cpp: start", "ReceiverThread.cpp: start", "SenderThread.cpp: start", "util/ThreadTransferHistory.cpp: setGlobalCheckpoint"]}
{"id": "C116", "title": "Each port is served by one thread at a time, in every round, and none is left over", "statement": "A transfer has one thread for each port. A receiver that runs for ever starts exactly one new thread for each port in every round, never two at once, and sets back what the threads share only when all threads of the round have ended; the report of a single transfer is made after all its threads have ended. A connection that is done before the threads of the other ports were started does not take the transfer for complete. Starting and ending threads never crashes the process, and when all threads have ended the next round begins without waiting for anything else. While a transfer is running, hasStarted says that it has started.", "quantifier": "all numbers of ports, all numbers of rounds, everything the threads may do and every moment at which they may end, all interleavings with the thread that starts them", "why_tests_cant": "Whether a check fails or a thread is counted as finished depends on how the ends of threads interleave with the loop that starts them, in any round; tests see a few interleavings of a few rounds.", "anchors": ["WdtThread.cpp: startThread, finish", "Receiver.cpp: start, finish", "Sender.cpp: start, finish", "util/ThreadsController.cpp: registerThread, reset, markState, deRegisterThread, hasThreads", "ReceiverThread.cpp: ReceiverThread, checkForFinishOrNewCheckpoints", "WdtBase.cpp: hasStarted"]}
