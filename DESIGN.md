# Formal model of wdt: design

The subject is facebook/wdt, source in /repo, read as text only.  The model and
the theorems are in Lean 4 under `lean/Verif/`.

## Conventions of the model

* Bytes are `UInt8`; buffers are `List UInt8`; C++ integers are `Nat`/`Int`
  with explicit range hypotheses (or explicit wrap-around where the property is
  about it).
* A C++ function that mutates through references becomes a function returning
  the new values.  A loop becomes structural recursion or recursion with fuel.
* Undefined behaviour (out-of-bounds access, negative array size) and failed
  `WDT_CHECK`s are distinct outcomes (`Fault.ub`, `Fault.check`), not assumed
  away.
* Calls to the operating system, OpenSSL and the clock are parameters
  (oracles) of the model, universally quantified in the theorems.
* Concurrency is modelled as a transition system whose steps are the critical
  sections of the code; theorems quantify over every sequence of steps.
* Each definition cites file and lines in /repo and says what is simplified.

Layout: `Verif/Model/*` definitions; `Verif/Lemmas/*` helper lemmas;
`Verif/Props/*` the property theorems with a non-vacuity `example` beside each.

## Plan per property (written before the proofs)

| id | model | proof |
|----|-------|-------|
| C01-C04 | `SerializationUtil.{h,cpp}` over explicit buffers | induction on the 9-byte loop; encoder = "splice of a pure byte list" refinement |
| C05-C09 | `Protocol.cpp` message codecs, parameter = protocol version | composition of C01-C04 |
| C10 | `FileChunksInfo` codecs | list induction |
| C11 | sender/receiver chunk-list exchange loop | termination by progress; negation witness for the boundary case |
| C12 | `negotiateProtocol` and both users | case analysis |
| C13, C14 | interval merge and complement | induction, set-of-positions semantics |
| C15 | `createIntoQueueInternal` | induction on ranges; positions semantics |
| C16, C17 | source queue as priority queue + counters | invariant over operation lists |
| C18-C20 | `ThreadTransferHistory` + queue + several threads | invariant over operation lists |
| C21 | reconnect loop state machine | variant argument |
| C22-C24 | `Reporting.cpp` | case analysis, list induction |
| C25-C28 | `TransferLogManager.cpp` | codec lemmas; parser vs. abstract replay; cut-point induction |
| C29 | `enqueueFilesToBeDeleted` | set reasoning |
| C30-C32 | `ThreadsController` | invariant of a transition system |
| C33 | receiver threads' finish/checkpoint protocol | invariant of a transition system |
| C34 | receiver buffer management against an arbitrary read oracle | refinement to a stream parser; negation witness for long headers |
| C35 | tag/IV framing of `WdtSocket`, cipher abstract | refinement to a framed stream |
| C36, C37 | `WdtUri`, `WdtTransferRequest` over byte strings | list induction |
| C38, C39 | resource controller as transition system | invariant; negation witness for the namespace race |
| C40, C41 | throttler over rationals | invariant over request sequences |
| C42, C43 | byte source / writer against OS oracles | induction over the oracle's answers |
| C44 | allocation protocol as transition system | invariant |
| C45 | composition of C15, C42, C43 | positions semantics |
| C46 | abort code state machine | invariant |
| C47 | verification bookkeeping of the receiver thread | invariant |
| C48, C58 | path resolution, creation of directories | path semantics; negation witness for `..` |
| C49-C116 | added while modelling | see the index |

## Trusted base

* Lean's kernel (4.33.0), and the axioms `propext`, `Classical.choice`, `Quot.sound` as listed
  for each theorem in the index below.  No own axioms, no `sorry`, no `native_decide`, no
  `bv_decide`.  Concrete cases use `decide +kernel` or `rfl`.
* The Mathlib modules imported are used for tactics and list/number lemmas only.
* The tie between model and code is by reading: every definition cites the lines it stands
  for; there is no extraction.  A wrong transcription is not detected by the kernel.
* The documented behaviour of what is called: POSIX system calls (short counts, errors and
  interruptions are oracle answers), `std::mutex`/`condition_variable` (spurious wake-ups
  included), `std::priority_queue`, `folly::ByteRange`, `folly::crc32c` (any function with the
  chaining law).

### What is modelled

| model | code | abstracted there |
|-------|------|------------------|
| Serial, Protocol | util/SerializationUtil, Protocol.cpp | out-parameters of failed decoders |
| ChunkExchange | ReceiverThread.cpp:770-812, SenderThread.cpp:543-608 | socket |
| Negotiation, Abort | WdtBase.cpp:30-96, SenderThread.cpp:829-984, ReceiverThread.cpp:300-322 | the counters of the barrier (they are in ThreadsController) |
| Chunks | Protocol.cpp:62-107, DirectorySourceQueue.cpp:479-555 | – |
| SourceQueue | util/DirectorySourceQueue.cpp | directory traversal (its result is an input; it is in Discovery) |
| Discovery | util/DirectorySourceQueue.cpp (exploreDirectory, file lists, pruning, failed directories) | the file system is a finite tree with links that does not change |
| Sockets | util/ServerSocket.cpp, util/ClientSocket.cpp, WdtSocket.cpp:536-588, 727-736, ThreadsController.cpp:16-39, SenderThread.cpp:35-106: waiting, listening, accepting, connecting | interrupted or failing poll, socket options |
| Sessions | Receiver.cpp:70-112, 446-486, ReceiverThread.cpp:1052-1061: one receiver, many transfers | connections that outlive a session, protocol version kept from an older sender |
| CmdLine | WdtOptions.cpp:18-60, WdtBase.cpp:119-137, wdtCmdLine.cpp:143-158, 361-373: option types, block and buffer size, manifests | gflags itself; block size as ℚ |
| Setup | WdtBase.cpp:85-96, 142-158, Sender.cpp:48-79, Receiver.cpp:114-237, ReceiverThread.cpp:108-133, 1014-1050, wdtCmdLine.cpp:303-360: init of both sides | generation of ids and keys (inputs) |
| Lifecycle | Sender.cpp:129-155, 165-255, 284-370, Receiver.cpp:287-373, 447-487: the calls of the API in any order | what the threads do (their statistics are inputs), progress reporting |
| Resume | FileCreator.cpp:51-168, ReceiverThread.cpp:393-404, 505-598, 668-682, Protocol.cpp:414-436, DirectorySourceQueue.cpp:145-161, 504-540 together with LogSession: contents of the files of a directory over several processes | data corrupted on its way, files changed by others while a process runs; after a loss of power (`DirOp.power`) bytes that were flushed and not written since are assumed to be there if the file is, a part of the log that was not flushed as never written, a failing `fsync` of the log is not modelled |
| FileWriter (`FWriter.sync`, `close`, `block`) | FileWriter.cpp:58-97, ReceiverThread.cpp:491-598: order of writing, flushing, closing and recording | - |
| WdtApi | Wdt.cpp:59-190, WdtResourceController.cpp:94-198, 359-398, 458-519, 560-575 with the identity of senders and receivers: interleaved calls of `wdtSend`, `wdtReceiveStart`, `wdtReceiveFinish` | sections within one call of the controller (Model/ResourceController), more than one quota, requests with an error code |
| CmdMain | wdtCmdLine.cpp:33-97, 164-387: what the program does and its exit status | gflags, signals, the thread for -abort_after_seconds, setting up the request (C80, C81, C84) |
| RateSys | SenderThread.cpp:316-446, ReceiverThread.cpp:506-575, Sender.cpp:19-38, Receiver.cpp:71-112 and Throttler.cpp: several transfers that share one throttler | which file a block belongs to, errors within a block other than the end of the thread |
| PerfStat | Reporting.h:548-601, Reporting.cpp:364-510: `PerfStatReport` and its output | the clock, the locks around a report, the average and the ranks in floating point (parameters) |
| Fds | every call of open, socket, accept, opendir and close in DirectorySourceQueue.cpp, FileByteSource.cpp, FileWriter.cpp, FileCreator.cpp, ClientSocket.cpp, ServerSocket.cpp, WdtSocket.cpp, TransferLogManager.cpp, as steps of one process | contents, names and error codes; a close that fails has closed (as on Linux) |
| Progress | Reporting.cpp:66-100, 226-345; Sender.cpp:128-162, 412-459 (reading of the numbers); Receiver.cpp:405-416 | the text of a throughput is an argument; `log10` is exact; colours and the title line are not modelled |
| BackChannel | ReceiverThread.cpp:235-254, 370-388, 822-872; SenderThread.cpp:151-206, 208-233, 247-280, 490-504, 625-756, 790-867: what a receiver writes to its sender on one connection and how that is read, byte by byte, heart beats included | encryption, the exchange of chunks, the drain of the send buffer after a time out |
| SockReceive | ReceiverThread.cpp:30-79, 257-285, 390-665, 983-1008: the receiver thread on any socket, in particular on an encrypted one (`Model/EncSocket.lean`) | as in ReceiverStream |
| BrokenConn | SenderThread.cpp:151-206, 281-464, 759-769, ReceiverThread.cpp:233-255, 405, 482-491, 654-671: a sender thread and its receiver thread over connections that break at any byte, on top of `SenderStream`, `ReceiverStream` and `History` | one thread on each side, no tags, no heart-beats, checkpoint as a value, no limit on connections without progress |
| Histogram | util/Stats.h:144-220, 222-350, 396-600, util/Stats.cpp:24-82, 118-217, 281-284 | `double` is ℚ, no overflow; recording in one histogram is one step; standard deviation, printing, `PeriodicCounters`' own thread |
| AppRegistry | Wdt.cpp:8-42, 49-52, 201-229, WdtResourceController.cpp:36-42, 81-116, 285-296, 343-397 | accesses to `initDone_` and the static flag are atomic steps; options are four numbers; creating a sender is one step; receivers |
| AbortTimer | wdtCmdLine.cpp:101-141, 347-379 | `wait_for` with a predicate as in the standard, spurious wake-ups included; the clock counts seconds; the transfer itself is one step |
| LogSafe | WdtTransferRequest.cpp:79-105, 130-248, 301-463; util/EncryptionUtils.cpp:66-192; wdtCmdLine.cpp:283-290, 328-333 | The functions of Uri once more with the messages they write, and a proof that the results are the same; `std::hash`, pointers and texts of exceptions are parameters |
| ProgressCalls | Reporting.h:479-513; Sender.cpp:165-255, 284-369, 414-458; Receiver.cpp:287-330, 349-357, 375-433, 447-487; WdtBase.cpp:66-69, 160-166 | The application's thread and the thread that reports, interleaved; the threads that transfer only as being there or not; the throughput as a quotient of integers; one thread of the application |
| BrokenEnc | as BrokenConn and SockReceive; ReceiverThread.cpp:205, 482-491, 659-689, 896-902, 1016-1019; WdtOptions.h:351-358; WdtTransferRequest.h:203 | A sender thread and a receiver thread over several encrypted connections, all but the last broken; the number of blocks verified before a break is left open; the checkpoint is handed over as a value |
| TransferRegistry | WdtResourceController.cpp:18-30, 36-279, 307-356, 358-673, 676-690, 712-714 | calls are one after the other; names and objects are numbers; throttler and options of new objects are left out |
| Crc | SenderThread.cpp:357, 370-371; ReceiverThread.cpp:506, 514-515, 560-561 | what `folly::crc32c` computes; folly is not in /repo, so the definition (CRC-32C, bits from the lowest, nothing complemented) is trusted and compared with the published check value |
| Damage | SenderThread.cpp:151-206, 298-309, 968-980; ReceiverThread.cpp:621-656, 990-1002 | as BrokenConn, but what arrives on a connection is given, so that it may be damaged |
| SocketLife | util/WdtSocket.cpp:14-522, 590-692, 811-818; util/EncryptionUtils.cpp:195-472 | the state of a socket object and its ciphers over many connections when anything may fail; byte counts only |
| Mismatch | util/ThreadTransferHistory.cpp:257-270; SenderThread.cpp:885-896 | what happens to blocks already sent when the receiver asks for another version |
| ThreadCalls | SenderThread.cpp:28-1001; ReceiverThread.cpp:30-1002; util/ClientSocket.cpp:39-176 | which calls the threads make on their sockets in which states; what decides between the ways out of a state is left open |
| HistoryByPort | util/ThreadTransferHistory.cpp:55-66, 233-284; SenderThread.cpp:790-826, 992-993; SenderThread.h:83-84 | histories found by port, ERR commands that name any port, the wait for a history to be free; the queue is left out |
| ThreadBuffer | util/CommonImpl.cpp:13-39, 57-64; WdtThread.h:28-42; util/ThreadsController.h:271-281; Receiver.cpp:122, 199; Sender.cpp:318, 334-345; WdtBase.cpp:179-188; WdtOptions.cpp:76-85; SenderThread.cpp:957-961; ReceiverThread.cpp:984-988 | a failing `posix_memalign` leaves a null pointer, as in glibc; without `posix_memalign` (macOS branches) nothing is said |
| SocketTimeouts | util/WdtSocket.cpp:727-760; util/ClientSocket.cpp:173; util/ServerSocket.cpp:293 | `setsockopt` fails only for an invalid number of microseconds |
| Rounds | WdtThread.cpp:27-48; WdtBase.cpp:174-177; Receiver.cpp:96-97, 305-309, 459-478; Sender.cpp:182-184, 360-362; util/ThreadsController.cpp:147-171, 234-246 | threads may mark their own state and end at any time; `std::thread` always finds resources |
| QueueWait | DirectorySourceQueue.cpp:194-236, 412-439, 676-750, Sender.cpp:267-283, 341-364: sleeping, waking, batches | which blocks (they are in SourceQueue) |
| History | util/ThreadTransferHistory.cpp | – |
| SenderThread | SenderThread.cpp:35-1030 as a state machine | bytes, timing |
| SenderStream | SenderThread.cpp:208-245, 316-496 | failing writes |
| Reporting, ErrorCode | Reporting.{h,cpp}, ErrorCodes | time, throughput |
| TransferLog | util/TransferLogManager.cpp: entries, parser, compaction | the writer thread (it is in LogSession) |
| LogSession | TransferLogManager.cpp:240-694, Receiver.cpp:49-90, 139-158, 489-556 over several processes | failures of open, lock, stat, seek; `fsync` |
| ThreadsController | util/ThreadsController, ReceiverThread.cpp:833-1008 | – |
| EndToEnd | both sides together: SenderThread.cpp:108-314, 466-488, 685-827, 954-1000, ReceiverThread.cpp:138-256, 390-718, 833-1008 over `History`, `SourceQueue`, `ThreadsController` | contents of blocks, versions without sequence ids in checkpoints, receivers that are not joinable |
| ReceiverStream | ReceiverThread.cpp:30-79, 257-735 | disk failures |
| ReceiverVerify | ReceiverThread.cpp:430-689, 878-906 | bytes: a block is known by the position of its end |
| EncSocket | util/WdtSocket.cpp, util/EncryptionUtils.cpp:281-472 | OpenSSL is a `Cipher` |
| Uri | WdtTransferRequest.cpp, EncryptionUtils.cpp:66-178 | – |
| ResourceController | WdtResourceController.cpp, Wdt.cpp | maps are lists |
| Throttler | Throttler.cpp | `double` is ℚ |
| FileByteSource, FileWriter, FileCreator, Paths, DestFile | the files of these names under util | symbolic links, permissions |

### What is not modelled

Kernel TCP and name resolution, the ciphers themselves, folly and
the standard library beyond their documentation, compiler, hardware and floating point
rounding, performance and timing, logging, gflags, the progress reporter's output, the rest
of `main`, statistics of latencies (util/Stats), Windows/macOS branches.  The C++ memory
model: shared data is taken to be protected by the locks that the code takes; where the code
takes none (for instance `protoNegotiationStatus_`) accesses are taken to be atomic.

## Where the code does not have the property

Each of these is a theorem with a concrete witness (name in parentheses); the property is then
proved under the condition that excludes it (`_partial`).

Protocol and streams
* A file record that does not fit the message buffer makes the receiver send chunk lists for
  ever, or twice (`C11_endless`, `C11_boundary_endless`, `C11_duplicate`).
* Headers longer than 256 bytes are parsed depending on how the network splits them: a file
  with another name is created (`C34_violated_long_name`); settings with a long transfer id
  likewise (`C34_violated_long_id`); bytes behind DONE (`C34_violated_behind_done`).
* SIZE commands alone, without knowing the transfer id, make the receiver process fail a check
  (`C34_violated_size_flood`).
* After negotiating version 10 or 11 other threads keep sending footers that the receiver does
  not expect (`C49_violated`).
* A sender crashes on VERSION_MISMATCH with a version it does not support
  (`C59_violated_unsupported`); an ABORT without an error clears the application's abort
  (`C46_violated_ok`).
* Final checks of the sender can fail, ending the process, when a checkpoint claims bytes for
  block 0 at offset 0 (`C53_finish_can_crash`).

Encryption
* A connection url that is not accepted, for example because its end was cut off when it was copied, is written to
  the log as it is, with the key (`C103_violated_cut`, `C103_violated_rejected`); a url that is accepted is
  written with the `std::hash` of the key in its place (`C103_violated_hash`).
* A reader whose buffer passes a tag position at the end of what was written waits for a tag
  that comes only with more data (`C35_violated_boundary`); a time-out behind a tag loses it
  (`C35_violated_timeout`).
* With peers without encryption allowed, plaintext of anybody is accepted, encryption stays off
  for later connections, and a first read of one byte fails (`C56_violated_*`,
  `C47_violated_plain_peer`).
* With checksums and tags, a block is counted on its CRC before a tag was verified
  (`C47_violated_checksum`).

Files
* Names with `..` or NUL lead out of the root directory; empty ones or ones that begin or end
  with a slash end the process (`C48_violated`, `C48_violated_nul`, `C48_violated_crash`).
* With direct I/O, short reads or a file that became shorter end the sender process
  (`C42_violated_direct_short_read`, `C42_violated_direct_short_file`).

Discovery
* A file that cannot be examined is left out and the sender reports success (`C62_violated`);
  the same if a directory reached by two paths is skipped the second time
  (`C62_violated_twice`).
* With deletion of extra files, what lies in a directory that the sender cannot open is deleted
  at the receiver (`C63_violated`); extra files are deleted although the option is off, when
  the request asks for resumption (`C63_deleted_without_option`).

Resumption over several processes
* A log found invalid is kept, on the ground that the directory then remains invalid.  It does
  not: a later session can find the same log valid, and offers blocks that were overwritten
  (`C66_violated_invalid_log`).
* Threads do not wait for the one that notes in the log that the sender does not resume
  (`C66_violated_race`).  With preallocation, which is the default, this can make a resumed
  transfer end with a file of zeros that is taken for complete (`C87_violated_race`).
* What is known about a file is left out of the list for the sender if it does not fit the
  buffer.  The file is then sent under a new number; the log keeps what it says about the old
  one, and with a larger buffer this is offered again (`C87_violated_unlisted`).
* Directories are never flushed.  A file that was received completely can be missing after a loss
  of power; C88 says that it is equal to the source or missing.
* If the header of the log cannot be written the receiver goes on without a log; the empty log
  is taken for that of a new directory (`C67_violated_short_header`).
* A successful transfer can end in a failed check: a sender without files into a directory
  with the log of another transfer, or a header that could not be written
  (`C68_violated_no_files`, `C68_violated_short_header`).
* In a directory with the log of another transfer the thread that writes the log is not
  started: progress of this session is not recorded (`C69_violated_inconsistent`).
* A checkpoint that the sender refuses loses data silently: `processErrCmd` ignores the result
  of `handleGlobalCheckpoint`, blocks that the receiver does not have stay in the history of a
  dead thread, the other threads finish and the sender reports OK.  Two ways to get there without
  anybody misbehaving: a connection breaks behind the header of a block before its first byte arrived and again
  later in the same block (`C70_refused_checkpoint_loses_data`; since receivers read at least 256 bytes before they look at a
  command, this needs a long name, `C99_violated_long_name`, or sequence id 0, `C99_violated_refused`); the receiver's checkpoint counts
  a block that the sender has written but not yet put into its history
  (`C70_early_checkpoint_loses_data`).
* The first of these also ends a thread whose connections only broke; if it is the only one the
  transfer can no longer be completed (`C83_breaks_alone_can_be_fatal`).
* As a consequence a sender can report success while a destination file is a proper prefix of
  its source (`C72_violated`).

Receivers that serve many transfers
* `endCurGlobalSession` keeps `checkpoints_` if no connection came in the session; `ReceiverThread::reset`
  clears an unused member of the same name instead.  The next sender is sent checkpoints of its own
  ports and waits for itself for ever (`C79_idle_violated`, `C79_waits_for_ever`).
* `blocksWaitingVerification_` survives from a session in which the thread failed to the next one.
  There the blocks are counted in checkpoints, so that a block that never arrived is taken for
  received and the transfer ends with success (`C79_unverified_violated`).

Options and command line
* `start_port` does not imply `static_ports` if the option type is "disk", because
  `modifyOptions` returns early (`C80_start_port_violated`).
* `block_size_mbytes` between 0 and 1 switches splitting off while the receiver is told that it is on
  (`C81_fraction_violated`); other fractions are cut off (`C81_cut_violated`).
* A buffer size near 2^31 wraps to a negative number (`C81_buffer_violated`).
* A manifest: an empty line ends the process (`C82_blank_violated`), an empty size shifts the fields
  (`C82_shift_violated`), sizes after a space, as the comment says, become part of the name
  (`C82_space_violated`), a file that cannot be opened means no files (`C82_missing_violated`).

Connections
* A receiver that names a sender thread's own port in an ERR command stops this thread for ever, and an abort does not
  help (`C114_violated_own_port`). A url that lists a port twice is accepted; its threads share one account of sent blocks,
  and a block that never arrived can count as acknowledged (`C114_violated_duplicate`).
* When a receiver asks for another version after a checkpoint that claimed bytes of block 0 at offset 0, the sender
  goes on though a block that it has sent stays in a thread's record (`C112_violated_claim`).
* The checksum of a block covers its data, not its header (SenderThread.cpp:357-372, ReceiverThread.cpp:506-516, 559-562): one damaged bit in the offset, sequence number or name makes the receiver write the data to another place and confirm the block (`C109_violated_header`).
* C106: a peer can make a receiver decode memory behind its buffer. `readNextCmd` makes sure that 256 bytes are there (ReceiverThread.cpp:261-263), `processSettingsCmd` decodes from a range that ends 1066 bytes behind the command (327-329), and SIZE commands, accepted before any settings, move the command as close to the end of the buffer as the peer likes. A transfer id that claims to be long is then copied from behind the buffer. The peer need not know the transfer id (`C106_violated_reads_outside`). A header that claims to be longer than the rest of the buffer (433-434) and settings completed by what the buffer held before (327-329, then 34) fail checks and kill the process (`C106_violated_long_header`, `C106_violated_negative_rest`).
* A file with sequence id 0 (the first file, when the sender asks for a list of chunks and the receiver has none), no
  checksums: if a connection breaks before any block and the next one in the middle of this file, the sender takes the second
  checkpoint for a change of the first and ends its thread with a protocol error (C99_violated_refused).
* The same for any sequence id if the name is so long that the header of the block does not leave room for data in the first
  256 bytes, and the first break is right behind the header (C99_violated_long_name).
* Encryption does not protect the settings at the beginning of a connection.  Somebody on the way can set the tag interval
  to 0, which turns off all checks before the end of the connection, and replace any bytes of the stream that they know, such
  as file names (C98_violated_rewrite).
* At a change of the vector the new vector is not protected: an earlier part of the stream can be replayed with right tags
  (C98_violated_replay).
* A connection whose stream, up to and with DONE, is as long as the tag interval (default 4 MB) fails: the receiver has all
  of it, but waits for the tag before it looks at it, and the sender waits for the receiver (C97_violated_boundary).
* `SenderThread::checkForAbort` reads one byte. With heart beats (the default) that byte can be an unread heart beat; the
  ABORT behind it is not looked at and the sender reconnects (C96_violated_hidden).
* `SenderThread::readHeartBeats` reads all that has arrived and drops what is not a heart beat; its callers ignore the error
  (C96_violated_swallowed; a TODO in the code says so).
* `sendHeartBeat` counts milliseconds in an `int` (`durationMillis`), so that after 2^31 ms without a heart beat none is
  sent for another 2^31 ms (C96_violated_idle).
* `processErrCmd` uses the peer's `int16_t` as size of an array without looking at its sign, and `processAbortCmd` does not
  look at the result of `decodeAbort` (C96_violated_hostile).
* C21 `C21_violated_made_up`: a local checkpoint with as many blocks as the last one, but another block and some bytes of
  it, counts as progress without a look at what the thread has sent. A receiver that makes such blocks up keeps a sender
  thread connecting for ever. With `max_transfer_retries = 0` the thread uses a null socket (`C21_zero_retries_crashes`).
* A negative `abort_check_interval_millis` (documented: no abort checks) also disables the connect
  timeout, because the poll timeout becomes negative (`C76_connect_violated`).
* If one address of the destination leaves connection attempts unanswered, the addresses after it
  are never tried (`C78_violated`).

Setting up and calling
* In the second and later transfers of a receiver that runs for ever `hasStarted` says that no transfer has started: the
  status is set to ONGOING once, before the loop, and to NOT_STARTED at the end of each round (Receiver.cpp:459, 476;
  `C116_violated_has_started`).
* A sender thread whose buffer cannot be allocated reports MEMORY_ALLOCATION_ERROR and leaves `start` before the steps at
  its end (SenderThread.cpp:957-961): its account of sent blocks stays in use, and a thread that the receiver tells about
  its port waits for ever (`C115_violated_wait`); a receiver thread in that case stays marked as RUNNING,
  and no other thread ever answers DONE (`C115_violated_no_done`); barriers and the hook at the end wait for it too
  (`C31_vanished_thread_blocks`, `C32_vanished_thread_no_hook`). With a `buffer_size` above 2147479552, which is rounded up
  to a negative number, no thread ever gets a buffer (`C115_violated_large`), and a sender that makes its own throttler
  fails a check in `start` (`C115_violated_large_start`).
* `Wdt.h` says that options changed after `initializeWdt` are used to configure the library.  The limits on senders are not: the
  global one is read when the object is made, before the caller can change it, that of a namespace at its first use
  (C101_violated_limits).
* `initDone_` is set after the lock is released: `getWdt` in another thread can find the object and end the process
  (C101_violated_race).  `releaseWdt` destroys an object to which other callers hold references (C101_violated_release).
* A request with version 0, which a url can contain, ends the sender's or receiver's process
  (`C84_sender_crash`, `C84_receiver_crash`, `C84_url_violated`); versions 1 to 9 are accepted and then
  refused by every peer (`C84_old_violated`, `C84_receiver_old_violated`).
* Resumption with `skip_writes`, or from the directory tree with preallocation, ends the process
  (`C84_options_violated`); a destination directory that cannot be created is not noticed
  (`C84_directory_violated`).
* If one of its ports is busy a receiver goes on without printing a url (`C85_fewer_violated`,
  `C85_busy_violated`); threads that listen later do so on ports nobody is told
  (`C85_late_violated`).
* `Sender::finish` at the same time as `transferAsync` joins a thread that does not exist
  (`C86_race_violated`); its second call gives another result than the first, error for success or
  success for error (`C86_again_violated`); a second `transferAsync` of a receiver, or use after a
  refused `init`, ends the process (`C86_receiver_twice_violated`, `C86_refused_violated`).
* Senders and receivers are released by name: a replaced call of `wdtSend` releases the sender that
  replaced it, so that more run than the quota allows (`C89_violated_terminate`,
  `C89_violated_stale`); with the quota used up nothing can be replaced (`C89_violated_full`); two
  calls of `wdtReceiveFinish` for a name can destroy a running receiver (`C90_violated_twice`).
* With `-exit_on_bad_flags=false` an unknown flag makes `wdt -` a receiver
  (`C91_violated_bad_flag`).

Batches of files
* With a generator of file lists, a version mismatch can leave the sender hanging for ever
  (`C74_violated_mismatch`); with the option `two_phases` it always hangs (`C74_violated_two_phases`).

Reports
* The progress reporter is told of the start only after the threads have begun (`C104_violated_start`); a receiver that
  never learns the total does not tell it of the end (`C104_violated_no_end`); a sender with a negative
  throughput_update_interval dies after the transfer has begun (`C104_violated_dies`).
* The wake-up of the thread that reports is lost if that thread does not wait at the moment the transfer ends: `finish`
  then lasts a whole progress_report_interval longer (`C104_violated_delay`).
* The current throughput can be negative or a division by 0 (`C104_violated_negative`, `C104_violated_division`).
* `Counter::merge` does not carry `realMin_` over, and `min_` only if the counter merged into has a minimum other than 0.  Since
  a histogram for many threads merges everything into an empty one, its minimum is always 0 or less (C100_violated_merge).
* `calcPercentile` begins its interpolation at 0: if all values are negative, percentiles are too large (C100_violated_negative).
* `ThreadLocalSwapableNode::process` delivers a histogram made without the scale: the ranges and percentiles printed are wrong unless
  the scale is 1 (C100_violated_scale).
* A value is lost if its recording overlaps with the reading by another thread; the code relies on a short sleep
  (C100_violated_race).
* The percentage shown may exceed 100: the total is read before the counters of the threads (Sender.cpp:128-151), and
  files may be found and sent in between.  With a file of one byte followed by one of half a megabyte, the width of the bar
  is computed by an overflow of `int` (`C95_violated_race`).
* A line of the progress display that is shorter by more than two characters leaves the end of the former line
  (`C95_violated_redraw`).
* The number of transferred files is one too large for each repetition of a failed name in the list of files
  (`C95_violated_twice`), and one too small for a listed file that does not exist: the report may say "All files failed."
  though files were sent, and the number may be -1 (`C95_violated_missing`).
* `minValueMicros_` is initialised with `{max}`, which sets only its first element; for all kinds of calls but socket reads the printed minimum is 0 (`C93_violated_min`). With one call no percentile is printed, since the rank is rounded down to 0 (second half of `C93_percentile`).
* Errors of threads can hide each other or depend on the order of threads when threads were
  told different totals (`C23_*`, `C24_code_depends_on_order`).

Resources, urls, throttling
* Creating a sender or receiver under an identifier in use returns the old object, "so the old one can potentially be aborted" (WdtResourceController.cpp:64, 101), only while there is room for another one: the limits are looked at first (377-380), so at the limit the caller gets QUOTA_EXCEEDED and no object (`C108_violated_hidden_by_quota`).
* Creating a sender or receiver sets the rates of the namespace's throttler, which forgets the bytes charged so far, also for the transfers that run: they send up to twice as much (`C92_violated_create`). Headers of empty files are not charged at all, so many empty files are sent at any rate (`C92_violated_empty`).
* Removing a namespace during `createSender` leaks capacity (`C39_violated_race`); a failed
  initialisation leaves the sender registered (`C57_violated_send`, `C57_violated_receive`).
* Urls: empty keys, port 0, hosts with `?`, leading `&`, overflow of ports and of the cipher
  type (`C37_violated_*`).
* The burst limit is exceeded by rounding, or not configured (`C41_violated`,
  `C41_violated_unconfigured`); setting rates restarts the average (`C40_violated_reset`).

Noted while reading, not stated as theorems: `decodeAbort`'s result is ignored by
`processAbortCmd`; `processErrCmd` takes a length that can be negative; `readNextReceiverCmd`'s
heart-beat arithmetic is checked with WDT_CHECK; a sender may name a file `.wdt.log`.

## Index of theorems

Generated.  After each theorem: file under `Verif/Props`, and the axioms it depends on (p = `propext`, c = `Classical.choice`, q = `Quot.sound`, – = none).  What each says is in its comment.

**C01** Variable-length integers survive the wire (proved)
- `C01_varint_buffer_roundtrip` (Serial.lean; pcq)
- `C01_varint_compact` (Serial.lean; pq)
- `C01_varint_roundtrip` (Serial.lean; pcq)

**C02** Signed integers survive the wire and out-of-range ones are refused (proved)
- `C02_decoded_in_range` (Serial.lean; pcq)
- `C02_fixed_refuses_negative` (Serial.lean; pcq)
- `C02_fixed_roundtrip` (Serial.lean; pcq)
- `C02_int32_refuses` (Serial.lean; pcq)
- `C02_nonneg_roundtrip` (Serial.lean; pcq)
- `C02_zigzag32_roundtrip` (Serial.lean; pcq)
- `C02_zigzag64_roundtrip` (Serial.lean; pcq)

**C03** Encoders never write outside the space they were given (proved)
- `C03_before_start` (Serial.lean; pq)
- `C03_encodeIntFixed` (Serial.lean; pq)
- `C03_encodeString` (Serial.lean; pq)
- `C03_encodeVarI64` (Serial.lean; pq)
- `C03_encodeVarI64C` (Serial.lean; pcq)
- `C03_encodeVarU64` (Serial.lean; pq)

**C04** Decoders are total and stay inside the received bytes (proved)
- `C04_make_range` (Serial.lean; pq)
- `C04_no_out_of_bounds_read` (Serial.lean; pcq)
- `C04_rest_is_suffix` (Serial.lean; pq)
- `C04_string_is_substring` (Serial.lean; pq)

**C05** Block headers round-trip under every protocol version (proved)
- `C05_decodeHeader_total` (Protocol.lean; pq)
- `C05_header_roundtrip` (Protocol.lean; pcq)
- `C05_no_flags` (Protocol.lean; pcq)

**C06** A legal block header always fits the space reserved for it (proved)
- `C06_bound_is_tight` (Protocol.lean; p)
- `C06_header_fits` (Protocol.lean; pcq)

**C07** Checkpoints round-trip and fit their fixed-size message (proved)
- `C07_checkpoints_lossless` (Protocol.lean; pq)
- `C07_checkpoints_roundtrip` (Protocol.lean; pcq)
- `C07_decodeCheckpoints_total` (Protocol.lean; pq)
- `C07_local_checkpoint_fits` (Protocol.lean; pcq)
- `C07_pre27_minus_one` (Protocol.lean; pcq)

**C08** Transfer settings round-trip (partial)
- `C08_decodeSettings_total` (Protocol.lean; pq)
- `C08_resume_long_id_truncated` (Protocol.lean; p)
- `C08_settings_fit` (Protocol.lean; pq)
- `C08_settings_roundtrip` (Protocol.lean; pcq)

**C09** Control messages round-trip and fit their fixed sizes (proved)
- `C09_abort` (Protocol.lean; pcq)
- `C09_chunksCmd` (Protocol.lean; pcq)
- `C09_decodeAbort_total` (Protocol.lean; pcq)
- `C09_done` (Protocol.lean; pcq)
- `C09_encryption` (Protocol.lean; pcq)
- `C09_footer` (Protocol.lean; pcq)
- `C09_size` (Protocol.lean; pcq)

**C10** Lists of previously received chunks round-trip (proved)
- `C10_decode_total` (ChunkExchange.lean; pq)
- `C10_progress` (ChunkExchange.lean; pcq)
- `C10_roundtrip` (ChunkExchange.lean; pcq)

**C11** The chunk list reaches the sender complete and the exchange ends (partial)
- `C11_boundary_endless` (ChunkExchange.lean; pq)
- `C11_count` (ChunkExchange.lean; pcq)
- `C11_duplicate` (ChunkExchange.lean; p)
- `C11_endless` (ChunkExchange.lean; pq)
- `C11_exchange_partial` (ChunkExchange.lean; pcq)

**C12** Protocol negotiation converges on a version both sides speak (proved)
- `C12_agree_on_min` (Negotiation.lean; pq)
- `C12_asks_what_it_uses` (Negotiation.lean; pcq)
- `C12_old_refused` (Negotiation.lean; pq)
- `C12_receiver_never_answers_zero` (Negotiation.lean; pq)
- `C12_sound` (Negotiation.lean; pq)
- `C12_threads_agree` (Negotiation.lean; pcq)
- `C12_threads_proceed` (Negotiation.lean; pq)
- `C12_zero_version_crashes` (Negotiation.lean; p)

**C13** Merging received ranges neither loses nor invents bytes (proved)
- `C13_merge_covers` (Chunks.lean; pq)
- `C13_merge_separated` (Chunks.lean; pq)
- `C13_order_irrelevant` (Chunks.lean; pcq)

**C14** Resuming sends exactly the missing bytes (proved)
- `C14_nothing_remaining_iff` (Chunks.lean; pcq)
- `C14_remaining_exact` (Chunks.lean; pcq)

**C15** Blocks tile the bytes to send (proved)
- `C15_empty_file` (Chunks.lean; pq)
- `C15_fresh_file` (Chunks.lean; pcq)
- `C15_hostile_list_endless` (Chunks.lean; pq)
- `C15_resumed_file` (Chunks.lean; pcq)
- `C15_status` (Chunks.lean; pcq)
- `C15_tile_range` (Chunks.lean; pcq)

**C16** No block is lost or handed out twice by the source queue (proved)
- `C16_blocks_of_files` (QueueFiles.lean; pcq)
- `C16_conservation` (SourceQueue.lean; pcq)
- `C16_early_pop_duplicates` (SourceQueue.lean; pq)
- `C16_every_byte_somewhere` (QueueFiles.lean; pcq)
- `C16_no_check_failure` (SourceQueue.lean; pcq)

**C17** Blocks are handed out in the documented priority order (proved)
- `C17_pop_order` (SourceQueue.lean; pq)
- `C17_strict_weak_order` (SourceQueue.lean; pcq)
- `C17_top_exists` (SourceQueue.lean; pq)

**C18** A checkpoint resumes exactly where the receiver stopped (proved)
- `C18_block_in_flight` (History.lean; pq)
- `C18_checkpoint_resumes` (History.lean; pcq)
- `C18_old_checkpoint_charged_twice` (History.lean; p)

**C19** Inconsistent checkpoints are refused without effect (proved)
- `C19_acknowledged_blocks_can_return` (History.lean; p)
- `C19_refused_iff` (History.lean; pcq)
- `C19_refused_no_effect` (History.lean; pq)
- `C19_refused_system` (History.lean; pcq)

**C20** Blocks are conserved between queue, threads and acknowledged set (proved)
- `C20_blocks_conserved` (History.lean; pcq)
- `C20_every_byte_conserved` (History.lean; pcq)
- `C20_everything_delivered` (History.lean; pcq)
- `C20_no_check_failure` (History.lean; pcq)

**C21** Retransmission stops when there is no progress (partial)
- `C21_bounded_reconnects_partial` (SenderThread.lean; pcq)
- `C21_counter` (SenderThread.lean; pq)
- `C21_ends` (SenderThreadEnds.lean; pcq)
- `C21_ends_from_anywhere` (SenderThreadEnds.lean; pcq)
- `C21_gives_up` (SenderThread.lean; pq)
- `C21_gives_up_from_anywhere` (SenderThread.lean; pcq)
- `C21_reconnect_reads_checkpoint` (SenderThread.lean; pcq)
- `C21_thread_no_fault` (SenderThread.lean; pcq)
- `C21_violated_made_up` (SenderThreadEnds.lean; pq)
- `C21_zero_retries_crashes` (SenderThread.lean; p)

**C22** A sender report of success means everything was sent (partial)
- `C22_all_opened` (Reporting.lean; pcq)
- `C22_empty_file_not_noticed` (Reporting.lean; –)
- `C22_nothing_left` (Reporting.lean; pcq)
- `C22_success_means_sent` (Reporting.lean; pcq)
- `C22_success_reported` (Reporting.lean; pcq)
- `C22_thread_ok_means_done` (SenderThreadOk.lean; pq)

**C23** A receiver report of success means everything was received (partial)
- `C23_disagreement_hidden` (Reporting.lean; –)
- `C23_encryption_failure_hidden` (Reporting.lean; –)
- `C23_no_encryption_failure_partial` (Reporting.lean; pcq)
- `C23_success_means_received` (Reporting.lean; pcq)

**C24** Combined error reporting is independent of thread order (partial)
- `C24_code_any_order_partial` (Reporting.lean; pq)
- `C24_code_depends_on_order` (Reporting.lean; –)
- `C24_counters_sum` (Reporting.lean; pcq)
- `C24_error_any_order` (Reporting.lean; pcq)
- `C24_error_iff` (Reporting.lean; pcq)

**C25** Transfer log entries round-trip and always fit (proved)
- `C25_entry_injective` (TransferLog.lean; pcq)
- `C25_entry_roundtrip` (TransferLog.lean; pcq)
- `C25_long_name_crash` (TransferLog.lean; pq)

**C26** A crash while writing the log loses only the tail (proved)
- `C26_always_ends` (TransferLog.lean; pcq)
- `C26_append_continues` (TransferLog.lean; pcq)
- `C26_clean_boundary` (TransferLog.lean; pcq)
- `C26_cut` (TransferLog.lean; pcq)

**C27** Resuming never claims bytes that were not recorded (proved)
- `C27_never_unrecorded` (TransferLog.lean; pcq)
- `C27_parse_says` (TransferLog.lean; pcq)
- `C27_reparse_same` (TransferLog.lean; pcq)
- `C27_written_says` (TransferLog.lean; pcq)

**C28** Log compaction does not change what the log says (proved)
- `C28_compact_same` (TransferLog.lean; pcq)
- `C28_compacts_complete` (TransferLog.lean; pcq)
- `C28_no_sender_invalid` (TransferLog.lean; pcq)

**C29** Deletion mode removes only files the sender does not have (proved)
- `C29_deletions_empty` (QueueFiles.lean; pcq)
- `C29_deletions_exact` (QueueFiles.lean; pcq)
- `C29_no_deletion` (QueueFiles.lean; pcq)

**C30** One-at-a-time sections admit one thread and are not lost (proved)
- `C30_no_lost_wakeup` (ThreadsController.lean; pcq)
- `C30_nothing_after_success` (ThreadsController.lean; pcq)
- `C30_one_inside` (ThreadsController.lean; pcq)
- `C30_reenter_after_failure` (ThreadsController.lean; pcq)

**C31** Barriers release everybody exactly when everybody arrived or left (partial)
- `C31_no_crash` (ThreadsController.lean; pcq)
- `C31_no_early_pass` (ThreadsController.lean; pcq)
- `C31_released_partial` (ThreadsController.lean; pcq)
- `C31_vanished_thread_blocks` (ThreadsController.lean; pcq)

**C32** Run-once hooks run exactly once (partial)
- `C32_at_most_once` (ThreadsController.lean; pcq)
- `C32_end_hook_last` (ThreadsController.lean; pcq)
- `C32_end_hook_partial` (ThreadsController.lean; pcq)
- `C32_no_crash` (ThreadsController.lean; pcq)
- `C32_start_hook` (ThreadsController.lean; pcq)
- `C32_vanished_thread_no_hook` (ThreadsController.lean; pcq)

**C33** The receiver says DONE only when nothing is outstanding (partial)
- `C33_checkpoints_handed` (ReceiverFinish.lean; pcq)
- `C33_done_partial` (ReceiverFinish.lean; pcq)
- `C33_done_while_receiving` (ReceiverFinish.lean; p)
- `C33_late_failure` (ReceiverFinish.lean; pq)
- `C33_no_deadlock` (ReceiverFinish.lean; pq)
- `C33_silent_end` (ReceiverFinish.lean; p)

**C34** What the receiver parses does not depend on packet boundaries (partial)
- `C34_bytes_behind_done` (ReceiverStream.lean; pq)
- `C34_delivery_partial` (SenderStream.lean; pcq)
- `C34_fragmentation_partial` (ReceiverStream.lean; pcq)
- `C34_parse_partial` (ReceiverStream.lean; pcq)
- `C34_violated_behind_done` (ReceiverStream.lean; pq)
- `C34_violated_long_id` (ReceiverStream.lean; pq)
- `C34_violated_long_name` (ReceiverStream.lean; pq)
- `C34_violated_size_flood` (ReceiverStream.lean; pcq)

**C35** Encrypted streams decode to what was written whatever the I/O sizes (partial)
- `C35_stream_partial` (EncSocket.lean; pcq)
- `C35_violated_boundary` (EncSocket.lean; pq)
- `C35_violated_timeout` (EncSocket.lean; pq)
- `C35_writes_independent` (EncSocket.lean; pcq)

**C36** Url escaping is reversible (proved)
- `C36_escape_injective` (Uri.lean; pq)
- `C36_escape_roundtrip` (Uri.lean; pq)
- `C36_unescape_exact` (Uri.lean; pq)

**C37** A connection url reproduces the request (partial)
- `C37_errors_reported` (UriErrors.lean; pcq)
- `C37_key_accepted` (UriRequest.lean; pq)
- `C37_key_roundtrip` (UriRequest.lean; pq)
- `C37_request_roundtrip_partial` (UriRequest.lean; pcq)
- `C37_url_roundtrip` (Uri.lean; pcq)
- `C37_violated_empty_key` (UriRequest.lean; pq)
- `C37_violated_host` (UriRequest.lean; pq)
- `C37_violated_leading_amp` (UriRequest.lean; pq)
- `C37_violated_port_overflow` (UriRequest.lean; pq)
- `C37_violated_port_zero` (UriRequest.lean; pq)
- `C37_violated_type_overflow` (UriRequest.lean; pq)

**C38** Resource quotas are never exceeded (proved)
- `C38_global` (ResourceController.lean; pcq)
- `C38_namespace` (ResourceController.lean; pcq)

**C39** Resource accounting matches reality (partial)
- `C39_capacity_partial` (ResourceController.lean; pcq)
- `C39_counts_partial` (ResourceController.lean; pcq)
- `C39_shutdown_partial` (ResourceController.lean; pcq)
- `C39_violated_race` (ResourceController.lean; pq)

**C40** Average throttling holds at every return (proved)
- `C40_average` (Throttler.lean; pcq)
- `C40_exact` (Throttler.lean; pcq)
- `C40_pieces` (Throttler.lean; pcq)
- `C40_violated_reset` (Throttler.lean; pcq)

**C41** Peak throttling bounds bursts (partial)
- `C41_peak_partial` (Throttler.lean; pcq)
- `C41_violated` (Throttler.lean; pcq)
- `C41_violated_unconfigured` (Throttler.lean; pcq)

**C42** Reading a block yields exactly its bytes (partial)
- `C42_again` (FileByteSource.lean; pcq)
- `C42_direct_partial` (FileByteSource.lean; pcq)
- `C42_error_reported` (FileByteSource.lean; pcq)
- `C42_reads_block` (FileByteSource.lean; pcq)
- `C42_short_file` (FileByteSource.lean; pcq)
- `C42_violated_direct_short_file` (FileByteSource.lean; pq)
- `C42_violated_direct_short_read` (FileByteSource.lean; pq)
- `C42_within_buffer` (FileByteSource.lean; pcq)

**C43** Writing a block puts exactly its bytes in place (proved)
- `C43_concurrent` (FileWriter.lean; pcq)
- `C43_failed` (FileWriter.lean; pq)
- `C43_synced` (FileWriter.lean; pq)
- `C43_written` (FileWriter.lean; pq)

**C44** A file is allocated once and nobody waits forever for it (proved)
- `C44_exact_not_sized` (FileCreator.lean; pcq)
- `C44_no_deadlock` (FileCreator.lean; pcq)
- `C44_no_lost_wakeup` (FileCreator.lean; pcq)
- `C44_sized_before_opened` (FileCreator.lean; pcq)
- `C44_sized_once` (FileCreator.lean; pcq)

**C45** The destination equals the source however blocks arrive (proved)
- `C45_equal` (DestFile.lean; pcq)
- `C45_fresh` (DestFile.lean; pcq)
- `C45_nothing_old` (DestFile.lean; pcq)
- `C45_resumed` (DestFile.lean; pcq)

**C46** An application abort is never lost (proved)
- `C46_kept` (Abort.lean; p)
- `C46_stays_aborted` (Abort.lean; pq)
- `C46_threads_stop` (Abort.lean; pq)
- `C46_violated_ok` (Abort.lean; p)

**C47** Received blocks are confirmed only after integrity checks (partial)
- `C47_all_counted` (ReceiverVerify.lean; pq)
- `C47_counted_after_tag_partial` (ReceiverVerify.lean; pq)
- `C47_counted_once` (ReceiverVerify.lean; pq)
- `C47_each_connection` (ReceiverVerify.lean; pq)
- `C47_partial_block` (ReceiverVerify.lean; pq)
- `C47_violated_checksum` (ReceiverVerify.lean; –)
- `C47_violated_plain_peer` (ReceiverVerify.lean; p)

**C48** Files are created only below the destination directory (partial)
- `C48_inside_partial` (Paths.lean; pq)
- `C48_violated` (Paths.lean; p)
- `C48_violated_crash` (Paths.lean; p)
- `C48_violated_nul` (Paths.lean; pq)

**C49** Both sides agree whether a checksum follows each block (partial)
- `C49_after_negotiation_partial` (Negotiation.lean; pq)
- `C49_initial_agreement` (Negotiation.lean; p)
- `C49_violated` (Negotiation.lean; p)

**C50** A peer cannot make wdt write outside its own buffers (partial)
- `C50_chunk_length_overflow` (ChunkExchange.lean; p)
- `C50_chunk_length_partial` (ChunkExchange.lean; pcq)

**C51** Different files never share a sequence id (proved)
- `C51_needs_distinct_ids` (QueueFiles.lean; pq)
- `C51_sequence_ids_distinct` (QueueFiles.lean; pcq)

**C52** Per-file and per-thread statistics always agree (proved)
- `C52_totals_agree` (History.lean; pcq)

**C53** Finishing a transfer always yields a report (partial)
- `C53_finish_can_crash` (SenderFinish.lean; pq)
- `C53_finish_partial` (SenderFinish.lean; pcq)

**C54** A log the receiver wrote is accepted when resuming (partial)
- `C54_accepted_partial` (TransferLog.lean; pcq)
- `C54_overflow_ub` (TransferLog.lean; pq)
- `C54_resize_of_lost_file` (TransferLog.lean; pq)
- `C54_stale_size` (TransferLog.lean; pq)

**C55** Encrypted data behind a tag is delivered only if the tag is right (proved)
- `C55_first_tag` (EncCheck.lean; pcq)
- `C55_only_checked` (EncCheck.lean; pcq)
- `C55_stream_end` (EncCheck.lean; pcq)

**C56** A receiver with a secret reads only what was encrypted with it (partial)
- `C56_encrypted_peer_partial` (EncSettings.lean; pcq)
- `C56_other_cipher_refused` (EncSettings.lean; pcq)
- `C56_violated_downgrade` (EncSettings.lean; pq)
- `C56_violated_one_byte` (EncSettings.lean; pq)
- `C56_violated_sticky` (EncSettings.lean; pq)

**C57** A finished send or receive leaves no slot taken (partial)
- `C57_send_partial` (ResourceController.lean; pcq)
- `C57_violated_receive` (ResourceController.lean; pq)
- `C57_violated_send` (ResourceController.lean; pq)

**C58** Directories are made before files (proved)
- `C58_parents_first` (Paths.lean; pq)

**C59** After a version mismatch all threads of a sender continue with one version (proved)
- `C59_no_crash` (Abort.lean; pcq)
- `C59_no_deadlock` (Abort.lean; pcq)
- `C59_one_version` (Abort.lean; pcq)
- `C59_violated_unsupported` (Abort.lean; pq)
- `C59_waits` (Abort.lean; pq)

**C60** Discovery finds exactly the wanted files of a tree (proved)
- `C60_ends` (Discovery.lean; pcq)
- `C60_errors` (Discovery.lean; pq)
- `C60_exact` (Discovery.lean; pcq)

**C61** Symbolic links cannot keep discovery from ending (proved)
- `C61_ends` (DiscoveryLinks.lean; pq)
- `C61_sound` (DiscoveryLinks.lean; pq)

**C62** What discovery could not read is reported (partial)
- `C62_unopened_reported_partial` (DiscoveryReport.lean; pcq)
- `C62_violated` (DiscoveryReport.lean; pcq)
- `C62_violated_twice` (DiscoveryReport.lean; pcq)

**C63** Files that the source still has are not deleted at the destination (partial)
- `C63_deleted_without_option` (DiscoveryReport.lean; p)
- `C63_option` (DiscoveryReport.lean; p)
- `C63_present_not_deleted_partial` (DiscoveryReport.lean; pcq)
- `C63_violated` (DiscoveryReport.lean; p)

**C64** A list of files is sent as given or failure is reported (proved)
- `C64_list_exact` (DiscoveryReport.lean; pcq)
- `C64_up_to_failure` (DiscoveryReport.lean; pq)

**C65** A restarted receiver offers only what this transfer recorded (proved)
- `C65_offered_blocks_recorded` (LogSession.lean; pcq)
- `C65_unverified` (LogSession.lean; pcq)

**C66** Offered blocks were not overwritten by someone else (partial)
- `C66_offered_data_current_partial` (LogSession.lean; pcq)
- `C66_violated_invalid_log` (LogSession.lean; pq)
- `C66_violated_race` (LogSession.lean; pq)

**C67** Size based resumption offers files only over in-order data of the same transfer (partial)
- `C67_offered_by_size_partial` (LogTree.lean; pcq)
- `C67_unverified_partial` (LogTree.lean; pcq)
- `C67_violated_short_header` (LogTree.lean; pq)

**C68** Ending a transfer does not crash the receiver (partial)
- `C68_finish_no_crash_partial` (LogTree.lean; pcq)
- `C68_violated_no_files` (LogTree.lean; pq)
- `C68_violated_short_header` (LogTree.lean; pq)

**C69** Work recorded before a crash is offered to the sender that comes back (partial)
- `C69_recorded_offered_partial` (LogKeep.lean; pcq)
- `C69_violated_inconsistent` (LogKeep.lean; pq)

**C70** A successful report means that everything has arrived (partial)
- `C70_done_means_arrived_partial` (EndToEnd.lean; pcq)
- `C70_early_checkpoint_loses_data` (EndToEnd.lean; p)
- `C70_refused_checkpoint_loses_data` (EndToEnd.lean; p)
- `C70_report_means_arrived_partial` (EndToEnd.lean; pcq)
- `C70_unless_receiver_thread_fails` (EndToEndCalm.lean; pcq)

**C71** Sender threads never block each other (proved)
- `C71_no_circle` (EndToEndWait.lean; pcq)
- `C71_sender_can_end` (EndToEndWait.lean; pcq)

**C72** After a successful report the destination files equal the source files (partial)
- `C72_complete_file` (EndToEndFiles.lean; pcq)
- `C72_headers` (EndToEndFiles.lean; pcq)
- `C72_new_file_partial` (EndToEndFiles.lean; pcq)
- `C72_new_file_unless_receiver_thread_fails` (EndToEndFiles.lean; pcq)
- `C72_resumed_file_partial` (EndToEndFiles.lean; pcq)
- `C72_violated` (EndToEndFiles.lean; pq)

**C73** No sender thread sleeps for ever (proved)
- `C73_all_leave` (QueueWait.lean; pq)
- `C73_block_is_taken` (QueueWait.lean; pq)
- `C73_not_forgotten` (QueueWait.lean; pq)

**C74** Batches of files are sent one after the other (partial)
- `C74_batch_is_out` (QueueWait.lean; pq)
- `C74_next_is_asked_partial` (QueueWait.lean; pq)
- `C74_violated_mismatch` (QueueWait.lean; pq)
- `C74_violated_two_phases` (QueueWait.lean; pq)

**C75** The receiver ends when the sender is gone (proved)
- `C75_bounded` (ReceiverEnds.lean; pcq)
- `C75_ends` (ReceiverEnds.lean; pcq)
- `C75_no_hang` (ReceiverEnds.lean; pcq)

**C76** Network operations keep to their timeouts and notice an abort (partial)
- `C76_accept` (SocketWait.lean; pcq)
- `C76_condition` (SocketWait.lean; pcq)
- `C76_connect_partial` (SocketWait.lean; pcq)
- `C76_connect_violated` (SocketWait.lean; pq)
- `C76_io` (SocketWait.lean; pcq)
- `C76_io_as_set` (SocketTimeouts.lean; pcq)
- `C76_socket_timeouts` (SocketTimeouts.lean; pcq)

**C77** A receiver listens on one port, on all address families, and treats them fairly (proved)
- `C77_close` (SocketListen.lean; pcq)
- `C77_fair` (SocketListen.lean; pcq)
- `C77_found` (SocketListen.lean; pcq)
- `C77_listen` (SocketListen.lean; pq)
- `C77_same_address` (SocketListen.lean; pq)

**C78** A sender connects if one address of the destination accepts (partial)
- `C78_retries` (SocketListen.lean; pcq)
- `C78_sound` (SocketListen.lean; pq)
- `C78_tries_all_partial` (SocketListen.lean; pcq)
- `C78_violated` (SocketListen.lean; pcq)

**C79** A long-running receiver serves each transfer like its first (partial)
- `C79_idle_violated` (Sessions.lean; pq)
- `C79_independent_partial` (Sessions.lean; pq)
- `C79_none_unverified` (Sessions.lean; pq)
- `C79_sessions_complete_partial` (Sessions.lean; pcq)
- `C79_unverified_violated` (Sessions.lean; p)
- `C79_waits_for_ever` (Sessions.lean; pq)

**C80** Options given by the user are honoured (partial)
- `C80_disk_consistent` (CmdLine.lean; pq)
- `C80_start_port_partial` (CmdLine.lean; pq)
- `C80_start_port_violated` (CmdLine.lean; pq)
- `C80_type_defaults` (CmdLine.lean; pq)
- `C80_user_wins` (CmdLine.lean; pq)

**C81** The sizes asked for are the sizes used (partial)
- `C81_buffer_partial` (CmdLine.lean; pcq)
- `C81_buffer_violated` (CmdLine.lean; –)
- `C81_cut_violated` (CmdLine.lean; pcq)
- `C81_fraction_violated` (CmdLine.lean; pcq)
- `C81_whole_partial` (CmdLine.lean; pcq)

**C82** A manifest means the files it names (partial)
- `C82_accepted` (CmdLine.lean; pq)
- `C82_blank_violated` (CmdLine.lean; pq)
- `C82_missing_violated` (CmdLine.lean; p)
- `C82_read_partial` (CmdLine.lean; pq)
- `C82_shift_violated` (CmdLine.lean; pq)
- `C82_space_violated` (CmdLine.lean; pq)

**C83** A transfer with a working connection can be completed (partial)
- `C83_breaks_alone_can_be_fatal` (EndToEndComplete.lean; pcq)
- `C83_breaks_never_fatal` (EndToEndComplete.lean; pcq)
- `C83_can_complete_partial` (EndToEndComplete.lean; pcq)

**C84** Setting up a sender or receiver either yields a usable request or says why not (partial)
- `C84_directory_violated` (Setup.lean; p)
- `C84_listens` (Setup.lean; pq)
- `C84_old_violated` (Setup.lean; pq)
- `C84_options_violated` (Setup.lean; p)
- `C84_receiver_crash` (Setup.lean; pq)
- `C84_receiver_old_violated` (Setup.lean; p)
- `C84_receiver_partial` (Setup.lean; pcq)
- `C84_sender_crash` (Setup.lean; pq)
- `C84_sender_partial` (Setup.lean; pcq)
- `C84_url_violated` (Setup.lean; pq)

**C85** The connection url printed by a receiver leads the sender to it (partial)
- `C85_busy_violated` (Setup.lean; pq)
- `C85_fewer_violated` (Setup.lean; pq)
- `C85_late_violated` (Setup.lean; p)
- `C85_url_partial` (Setup.lean; pcq)

**C86** Calls on sender and receiver objects in any order (partial)
- `C86_again_violated` (Lifecycle.lean; p)
- `C86_one_start` (Lifecycle.lean; p)
- `C86_race_violated` (Lifecycle.lean; p)
- `C86_receiver_again` (Lifecycle.lean; pq)
- `C86_receiver_finish_waits` (Lifecycle.lean; pq)
- `C86_receiver_no_crash_partial` (Lifecycle.lean; pq)
- `C86_receiver_success` (Lifecycle.lean; pcq)
- `C86_receiver_twice_violated` (Lifecycle.lean; p)
- `C86_refused_violated` (Lifecycle.lean; p)
- `C86_sender_finish_waits` (Lifecycle.lean; pq)
- `C86_sender_no_crash_partial` (Lifecycle.lean; p)
- `C86_sender_not_started` (Lifecycle.lean; p)

**C87** A transfer that was interrupted and resumed ends with files equal to the source (partial)
- `C87_equal_partial` (Resume.lean; pcq)
- `C87_offered_partial` (Resume.lean; pcq)
- `C87_resumed_transfer_partial` (Resume.lean; pcq)
- `C87_violated_other_source` (Resume.lean; pq)
- `C87_violated_race` (Resume.lean; pq)
- `C87_violated_unlisted` (Resume.lean; pq)

**C88** What was recorded as received survives a loss of power (partial)
- `C88_complete_partial` (Power.lean; pcq)
- `C88_flushed_first` (Power.lean; pq)
- `C88_offered_partial` (Power.lean; pcq)

**C89** One transfer at a time to a destination (partial)
- `C89_one_at_a_time_partial` (WdtApi.lean; pq)
- `C89_quota_partial` (WdtApi.lean; pcq)
- `C89_violated_full` (WdtApi.lean; pq)
- `C89_violated_stale` (WdtApi.lean; pq)
- `C89_violated_terminate` (WdtApi.lean; pq)
- `C89_without_replacing` (WdtApi.lean; pcq)

**C90** Finishing one receive does not disturb another (partial)
- `C90_finish_partial` (WdtApi.lean; pq)
- `C90_violated_twice` (WdtApi.lean; pq)

**C91** The program does what the command line says and its exit status says whether that succeeded (partial)
- `C91_exit_status` (CmdMain.lean; pcq)
- `C91_sender_exit` (CmdMain.lean; pcq)
- `C91_side_partial` (CmdMain.lean; pcq)
- `C91_violated_bad_flag` (CmdMain.lean; –)

**C92** Transfers that share a throttler together keep to the average rate (partial)
- `C92_rate_partial` (RateSys.lean; pcq)
- `C92_registered` (RateSys.lean; pcq)
- `C92_sent_partial` (RateSys.lean; pcq)
- `C92_violated_create` (RateSys.lean; pcq)
- `C92_violated_empty` (RateSys.lean; pcq)

**C93** Performance statistics say what was measured (partial)
- `C93_counts` (PerfStat.lean; pcq)
- `C93_histogram` (PerfStat.lean; pcq)
- `C93_min_partial` (PerfStat.lean; pcq)
- `C93_percentile` (PerfStat.lean; pcq)
- `C93_violated_min` (PerfStat.lean; pcq)

**C94** Files and sockets that wdt opens are closed exactly once, and no others (proved)
- `C94_app` (Fds.lean; pcq)
- `C94_budget` (Fds.lean; pcq)
- `C94_closed` (Fds.lean; pcq)
- `C94_connection_closed` (Fds.lean; pcq)
- `C94_no_leak` (Fds.lean; pcq)
- `C94_one_per_thread` (Fds.lean; pcq)
- `C94_receiver_closed` (Fds.lean; pcq)
- `C94_safe` (Fds.lean; pcq)
- `C94_sender_destroyed` (Fds.lean; pcq)

**C95** What the progress display and the printed report say (partial)
- `C95_bar` (Progress.lean; pcq)
- `C95_bar_grows` (Progress.lean; pcq)
- `C95_count_partial` (Progress.lean; pcq)
- `C95_failed_names` (Progress.lean; pcq)
- `C95_percent_partial` (Progress.lean; pcq)
- `C95_receiver_unknown` (Progress.lean; pq)
- `C95_redraw_partial` (Progress.lean; pcq)
- `C95_violated_missing` (Progress.lean; pcq)
- `C95_violated_race` (Progress.lean; pq)
- `C95_violated_redraw` (Progress.lean; pq)
- `C95_violated_twice` (Progress.lean; p)

**C96** Heart beats keep the sender patient and change nothing else (partial)
- `C96_abort_partial` (BackChannel.lean; pcq)
- `C96_agreed` (BackChannel.lean; pcq)
- `C96_few` (BackChannel.lean; pq)
- `C96_local_checkpoint` (BackChannel.lean; pcq)
- `C96_no_false_abort` (BackChannel.lean; p)
- `C96_patient` (BackChannel.lean; pcq)
- `C96_poll_partial` (BackChannel.lean; pq)
- `C96_transparent_partial` (BackChannel.lean; pcq)
- `C96_violated_hidden` (BackChannel.lean; pq)
- `C96_violated_hostile` (BackChannel.lean; pcq)
- `C96_violated_idle` (BackChannel.lean; pq)
- `C96_violated_swallowed` (BackChannel.lean; pcq)

**C97** An encrypted connection delivers what an unencrypted one delivers (partial)
- `C97_delivery_partial` (EncReceive.lean; pcq)
- `C97_transparent_partial` (EncReceive.lean; pcq)
- `C97_violated_boundary` (EncReceive.lean; pq)

**C98** Without the secret nobody can make a receiver take what was not sent (partial)
- `C98_authentic_partial` (EncHostile.lean; pcq)
- `C98_nothing_else` (EncHostile.lean; pcq)
- `C98_one_stream_partial` (EncHostile.lean; pcq)
- `C98_violated_replay` (EncHostile.lean; pcq)
- `C98_violated_rewrite` (EncHostile.lean; pcq)

**C99** A connection may break at any byte, again and again, and the transfer still completes (partial)
- `C99_break_partial` (BrokenConn.lean; pcq)
- `C99_encrypted_break_partial` (BrokenConn.lean; pcq)
- `C99_resume_partial` (BrokenConn.lean; pcq)
- `C99_violated_long_name` (BrokenConn.lean; pcq)
- `C99_violated_refused` (BrokenConn.lean; pcq)

**C100** Counters and histograms say what was recorded (partial)
- `C100_merge_partial` (Histogram.lean; pcq)
- `C100_percentile_partial` (Histogram.lean; pcq)
- `C100_recorded` (Histogram.lean; pcq)
- `C100_threads_partial` (Histogram.lean; pcq)
- `C100_violated_merge` (Histogram.lean; pcq)
- `C100_violated_negative` (Histogram.lean; pcq)
- `C100_violated_race` (Histogram.lean; p)
- `C100_violated_scale` (Histogram.lean; pcq)

**C101** One object per application name, and its options are its own (partial)
- `C101_faults` (AppRegistry.lean; pq)
- `C101_first_use` (AppRegistry.lean; p)
- `C101_one_object` (AppRegistry.lean; pq)
- `C101_options_partial` (AppRegistry.lean; pcq)
- `C101_violated_limits` (AppRegistry.lean; p)
- `C101_violated_race` (AppRegistry.lean; p)
- `C101_violated_release` (AppRegistry.lean; p)

**C102** An abort after a time limit comes neither early nor after the end, and the limit never delays the end (proved)
- `C102_aborts` (AbortTimer.lean; pcq)
- `C102_cancelled` (AbortTimer.lean; pcq)
- `C102_exits` (AbortTimer.lean; pcq)
- `C102_never_early` (AbortTimer.lean; pcq)

**C103** The key of an encrypted transfer does not get into the log (partial)
- `C103_no_key_partial` (LogSafe.lean; pcq)
- `C103_violated_cut` (LogSafe.lean; pq)
- `C103_violated_hash` (LogSafe.lean; pq)
- `C103_violated_rejected` (LogSafe.lean; pq)

**C104** A progress reporter is told of the start, the progress and the end of a transfer, in this order (partial)
- `C104_complete_partial` (ProgressCalls.lean; pcq)
- `C104_finish_returns` (ProgressCalls.lean; pcq)
- `C104_no_fault` (ProgressCalls.lean; pcq)
- `C104_order` (ProgressCalls.lean; pcq)
- `C104_stops` (ProgressCalls.lean; pcq)
- `C104_throughput` (ProgressCalls.lean; pcq)
- `C104_time_partial` (ProgressCalls.lean; pcq)
- `C104_unused` (ProgressCalls.lean; pcq)
- `C104_update_interval` (ProgressCalls.lean; pq)
- `C104_violated_delay` (ProgressCalls.lean; pq)
- `C104_violated_dies` (ProgressCalls.lean; p)
- `C104_violated_division` (ProgressCalls.lean; p)
- `C104_violated_negative` (ProgressCalls.lean; p)
- `C104_violated_no_end` (ProgressCalls.lean; p)
- `C104_violated_start` (ProgressCalls.lean; p)

**C105** Encrypted connections may break at any byte, again and again, and the transfer still completes (partial)
- `C105_resume_partial` (BrokenEnc.lean; pcq)

**C106** Whatever bytes a peer sends, a receiver thread stays inside its buffer, ends and does not crash (partial)
- `C106_crash_partial` (HostileStream.lean; pcq)
- `C106_ends` (HostileStream.lean; pcq)
- `C106_memory_partial` (HostileStream.lean; pcq)
- `C106_memory_short` (HostileStream.lean; pcq)
- `C106_short_total` (HostileStream.lean; pcq)
- `C106_violated_long_header` (HostileStream.lean; pq)
- `C106_violated_negative_rest` (HostileStream.lean; pq)
- `C106_violated_reads_outside` (HostileStream.lean; pcq)

**C107** Whatever a receiver answers, the sender neither crashes nor reads for ever, and reports success only after DONE (partial)
- `C107_answers_partial` (HostileReply.lean; pcq)
- `C107_call_partial` (HostileReply.lean; pcq)
- `C107_ends` (HostileReply.lean; pcq)
- `C107_success_needs_done` (HostileReply.lean; pcq)
- `C107_violated` (HostileReply.lean; pcq)

**C108** The resource controller gives callers the transfer objects they made, one per name, until they release them (partial)
- `C108_all` (TransferRegistry.lean; pcq)
- `C108_counts` (TransferRegistry.lean; pcq)
- `C108_create` (TransferRegistry.lean; pcq)
- `C108_get` (TransferRegistry.lean; pcq)
- `C108_ids` (TransferRegistry.lean; pcq)
- `C108_limits` (TransferRegistry.lean; pcq)
- `C108_no_check` (TransferRegistry.lean; pcq)
- `C108_one` (TransferRegistry.lean; pcq)
- `C108_quota` (TransferRegistry.lean; pcq)
- `C108_quota_left_partial` (TransferRegistry.lean; pcq)
- `C108_release` (TransferRegistry.lean; pcq)
- `C108_stale` (TransferRegistry.lean; pcq)
- `C108_violated_hidden_by_quota` (TransferRegistry.lean; p)

**C109** With checksums on, damage on the way is noticed and the damaged block is not confirmed (partial)
- `C109_burst` (Crc.lean; pcq)
- `C109_damage_partial` (Crc.lean; pcq)
- `C109_limit` (Crc.lean; pq)
- `C109_odd` (Crc.lean; pcq)
- `C109_piecewise` (Crc.lean; pq)
- `C109_violated_header` (Crc.lean; pcq)

**C110** With checksums on, connections may damage data and break, again and again, and the files still end up right (partial)
- `C110_resume_partial` (Damage.lean; pcq)

**C111** A socket survives every failure and starts afresh after it (proved)
- `C111_next_connection` (SocketLife.lean; pcq)
- `C111_no_check` (SocketLife.lean; pcq)
- `C111_order_needed` (SocketLife.lean; p)
- `C111_read_failure_final` (SocketLife.lean; pcq)
- `C111_retried` (SocketRetry.lean; pcq)
- `C111_write_failure_final` (SocketLife.lean; pcq)

**C112** What was sent before the versions were agreed is sent again, all of it (partial)
- `C112_all_back_partial` (Mismatch.lean; pcq)
- `C112_delivered_after_partial` (Mismatch.lean; pcq)
- `C112_violated_claim` (Mismatch.lean; pq)

**C113** The threads use their sockets only in ways that cannot crash (partial)
- `C113_receiver` (ThreadCalls.lean; pcq)
- `C113_sender_closes` (ThreadCalls.lean; pcq)
- `C113_sender_partial` (ThreadCalls.lean; pcq)
- `C113_violated_length` (ThreadCalls.lean; p)

**C114** Every connection has its own account of sent blocks, and waiting for a failed connection ends (partial)
- `C114_counted_ports` (HistoryByPort.lean; pcq)
- `C114_ends_iff_partial` (HistoryByPort.lean; pcq)
- `C114_freed_after_end` (HistoryByPort.lean; pq)
- `C114_no_crash` (HistoryByPort.lean; pq)
- `C114_one_account_each` (HistoryByPort.lean; pq)
- `C114_own_account` (HistoryByPort.lean; pq)
- `C114_violated_duplicate` (HistoryByPort.lean; pq)
- `C114_violated_duplicate_wait` (HistoryByPort.lean; p)
- `C114_violated_own_port` (HistoryByPort.lean; pq)

**C115** A transfer works with every buffer size the user may ask for (partial)
- `C115_buffers` (ThreadBuffer.lean; pcq)
- `C115_enough_partial` (ThreadBuffer.lean; pcq)
- `C115_no_memory_reported` (ThreadBuffer.lean; pcq)
- `C115_receives` (ThreadBuffer.lean; pcq)
- `C115_sends` (ThreadBuffer.lean; pcq)
- `C115_size_makes_no_difference` (ThreadBuffer.lean; pcq)
- `C115_start` (ThreadBuffer.lean; pcq)
- `C115_violated_large` (ThreadBuffer.lean; pcq)
- `C115_violated_large_start` (ThreadBuffer.lean; pcq)
- `C115_violated_no_done` (ThreadBuffer.lean; pq)
- `C115_violated_wait` (ThreadBuffer.lean; pq)

**C116** Each port is served by one thread at a time, in every round, and none is left over (partial)
- `C116_each_round` (Rounds.lean; pcq)
- `C116_goes_on` (Rounds.lean; pcq)
- `C116_has_started_partial` (Rounds.lean; pcq)
- `C116_no_check_fails` (Rounds.lean; pcq)
- `C116_nobody_left` (Rounds.lean; pcq)
- `C116_not_started_counts_as_running` (Rounds.lean; pcq)
- `C116_one_thread_per_port` (Rounds.lean; pcq)
- `C116_violated_has_started` (Rounds.lean; pcq)
