{
 "claims": [
  {
   "property": "C01",
   "status": "proved",
   "theorems": [
    "Salticidae.C01_stream_roundtrip"
   ],
   "note": "C01_stream_roundtrip: C01. Write `items` and then `more` to any stream. Reading first the bytes that were unread before, then items of the same types, gives these bytes and these items in order; continuing, one reads `more`, after which the stream is exhausted. Either byte order."
  },
  {
   "property": "C02",
   "status": "proved",
   "theorems": [
    "Salticidae.C02_short_int_read"
   ],
   "note": "C02_short_int_read: C02. Reading a `w`-byte integer: with fewer than `w` unread bytes it throws and the stream is unchanged; otherwise it returns the integer represented by the `w` oldest unread bytes and consumes exactly these. It never touches memory outside the buffer."
  },
  {
   "property": "C03",
   "status": "partial",
   "theorems": [
    "Salticidae.C03_violated",
    "Salticidae.C03_violated_overflow",
    "Salticidae.C03_violated_followup",
    "Salticidae.C03_block_read_partial"
   ],
   "note": "The code violates the full statement; the negation is proved with a concrete execution, and the part that holds is proved for all inputs. Holds: C03_block_read_partial: C03, proved part: for lengths below 2^62, a block read succeeds exactly when enough bytes are unread, returns exactly the next `len` bytes, and otherwise throws; it never yields bytes outside the buffer. After a failed read, integer reads throw and later appended data is not disturbed. Missing: the state after a failed read (see `C03_violated`) and huge lengths. Fails: C03_violated: C03 is violated: a failed block read advances the read position past the end, so that size() reports a huge number. C03_violated_overflow: C03 is violated in a second way: a length close to the top of `size_t` makes the sum wrap, the check passes and the caller is handed a pointer to `len` bytes that do not exist. C03_violated_followup: C03 is violated in a third way: after a failed block read the next integer read can read outside the buffer."
  },
  {
   "property": "C04",
   "status": "partial",
   "theorems": [
    "Salticidae.C04_violated",
    "Salticidae.C04_to_bytes_partial"
   ],
   "note": "The code violates the full statement; the negation is proved with a concrete execution, and the part that holds is proved for all inputs. Holds: C04_to_bytes_partial: C04, proved part: the lvalue conversion gives exactly the unread bytes; the rvalue conversion does so exactly when nothing was read (or nothing was ever written). Missing: rvalue conversion after a read. Fails: C04_violated: C04 is violated: converting an rvalue stream gives the whole buffer, including bytes that were already read."
  },
  {
   "property": "C05",
   "status": "proved",
   "theorems": [
    "Salticidae.C05_portable_integers"
   ],
   "note": "C05_portable_integers: C05. `s << htole(x)` appends the little-endian encoding of `x` on a host of any byte order, and `letoh` after reading gives `x` back on a host of any (other) byte order."
  },
  {
   "property": "C06",
   "status": "proved",
   "theorems": [
    "Salticidae.C06_hex_roundtrip",
    "Salticidae.C06_hex_injective"
   ],
   "note": "C06_hex_roundtrip: C06. `get_hex` gives two characters per unread byte, which denote exactly these bytes, and `load_hex` of that text, in either letter case and into any stream, yields exactly these bytes. C06_hex_injective: C06, consequence: streams with different unread bytes print differently."
  },
  {
   "property": "C07",
   "status": "partial",
   "theorems": [
    "Salticidae.C07_violated",
    "Salticidae.C07_violated_more",
    "Salticidae.C07_load_hex_partial",
    "Salticidae.C07_no_digit_partial"
   ],
   "note": "The code violates the full statement; the negation is proved with a concrete execution, and the part that holds is proved for all inputs. Holds: C07_load_hex_partial: C07, proved part: well-formed text is always accepted with its value; text of odd length is always rejected without any effect; for text of even length without blanks and signs, the call fails exactly if some pair does not start with a hex digit (or is `0x`, depending on the C library). Missing: rejection of a non-digit in the second place of a pair, of blanks and signs. C07_no_digit_partial: C07, proved part: whatever blanks and signs a text contains, it is rejected if what follows some even position has no hex digit. Fails: C07_violated: C07 is violated: `load_hex(\"1g\")` succeeds. C07_violated_more: C07 is violated: white space lets digits be used twice, signs are accepted, and a rejected call changes the stream."
  },
  {
   "property": "C08",
   "status": "proved",
   "theorems": [
    "Salticidae.C08_blob_roundtrip",
    "Salticidae.C08_blob_short"
   ],
   "note": "C08_blob_roundtrip: C08. A blob built from `w * n` bytes exists exactly for arrays of that length, is not null, serialises to exactly these bytes on a host of either byte order (appended to whatever the stream held), and unserialising from any stream that starts with these bytes, into any blob object of the same type, gives an equal, non-null blob and consumes exactly these bytes. C08_blob_short: C08, error branch: unserialising from a stream that is too short throws."
  },
  {
   "property": "C09",
   "status": "proved",
   "theorems": [
    "Salticidae.C09_blob_order",
    "Salticidae.C09_blob_hash",
    "Salticidae.C09_blob_order_laws"
   ],
   "note": "C09_blob_order: C09. For set blobs of the same size, `<` is the order of the values, `==` holds exactly when the serialised bytes (hence the values) agree, `!=` is its negation, and equal blobs have equal hashes. Since `<` on numbers is a strict total order, so is `<` on blobs (`C09_blob_order_laws`). C09_blob_hash: C09, hash: it is the number that the first word of the serialised bytes stands for, as a size_t (all of the value if the blob is one word). C09_blob_order_laws: C09, order laws: irreflexive, transitive, and exactly one of `a < b`, `a == b`, `b < a`."
  },
  {
   "property": "C10",
   "status": "partial",
   "theorems": [
    "Salticidae.C10_violated",
    "Salticidae.C10_null_partial"
   ],
   "note": "The code violates the full statement; the negation is proved with a concrete execution, and the part that holds is proved for all inputs. Holds: C10_null_partial: C10, proved part: an unset blob is null and differs (by `==`) from every set blob whose value is not zero. Missing: telling it from the all-zero blob, and null surviving serialisation. Fails: C10_violated: C10 is violated, in both parts: an unset blob compares equal to the all-zero blob, and an unset blob becomes a set one by going through serialisation."
  },
  {
   "property": "C11",
   "status": "proved",
   "theorems": [
    "Salticidae.C11_bits_array"
   ],
   "note": "C11_bits_array: C11. Take a Bits created for `n` bits (fresh memory of any content `junk`). Every bit is readable; and after any sequence of in-range operations, every bit has the value an array of independent booleans with the same initial content would have. No step is undefined behaviour. (`n + 8w - 1 < 2^32` is the range in which the library computes the array size without wrapping.)"
  },
  {
   "property": "C12",
   "status": "partial",
   "theorems": [
    "Salticidae.C12_violated",
    "Salticidae.C12_bits_load_partial"
   ],
   "note": "The code violates the full statement; the negation is proved with a concrete execution, and the part that holds is proved for all inputs. Holds: C12_bits_load_partial: C12, proved part: the property holds for word types of at most 4 bytes and any array, and for any word type and arrays of at most 4 bytes. Missing: `Bits` (8-byte words) with longer arrays. Fails: C12_violated: C12 is violated for `Bits` (64-bit words): every array of five or more bytes makes the library shift an `int` by 32 or more, which is undefined behaviour."
  },
  {
   "property": "C13",
   "status": "partial",
   "theorems": [
    "Salticidae.C13_violated",
    "Salticidae.C13_bits_roundtrip_partial"
   ],
   "note": "The code violates the full statement; the negation is proved with a concrete execution, and the part that holds is proved for all inputs. Holds: C13_bits_roundtrip_partial: C13, proved part: the round trip holds for every well-formed Bits (any host byte orders of writer and reader), and hostile input that announces at most 2^32 - 8w bits gives either an exception or a Bits all of whose bits are readable. Missing: announced sizes above that bound. Fails: C13_violated: C13 is violated for hostile input: four bytes `ff ff ff ff` unserialise to a Bits that claims 2^32-1 bits but has no storage, so reading bit 0 is out of bounds."
  },
  {
   "property": "C14",
   "status": "proved",
   "theorems": [
    "Salticidae.C14_netaddr_roundtrip",
    "Salticidae.C14_netaddr_eq",
    "Salticidae.C14_netaddr_meaning"
   ],
   "note": "C14_netaddr_roundtrip: C14. Serialising appends exactly six bytes; unserialising them, possibly followed by other data, into any NetAddr object on a host of the same or of the other byte order gives an address with the same quad and port number, consumes exactly six bytes, and on the same byte order gives an equal address; a stream with fewer bytes throws. Equality is equality of both fields; equal addresses hash equally. C14_netaddr_eq: C14, equality and hash. C14_netaddr_meaning: C14, the two byte orders store the same quad and port differently but serialise them the same: an address built from a resolved host and a port number has that meaning."
  },
  {
   "property": "C15",
   "status": "partial",
   "theorems": [
    "Salticidae.C15_violated",
    "Salticidae.C15_violated_more",
    "Salticidae.C15_netaddr_text_partial",
    "Salticidae.C15_decimal"
   ],
   "note": "The code violates the full statement; the negation is proved with a concrete execution, and the part that holds is proved for all inputs. Holds: C15_netaddr_text_partial: C15, proved part: a text (without NUL characters) is accepted exactly if it has a colon, the part before the first colon resolves, and the part after it is a lax port text; the stored address is that quad and that port number. In particular every text of the specified form is accepted with the right port, texts without colon, without digits or with a port above 65535 or below 0 are rejected. Missing for the full statement: rejection of white space, sign and trailing characters. C15_decimal: In particular the usual text of an address. Fails: C15_violated: C15 is violated: trailing garbage, white space and signs are accepted. C15_violated_more: More accepted texts outside the specification: white space, signs, negative zero."
  },
  {
   "property": "C16",
   "status": "proved",
   "theorems": [
    "Salticidae.C16_header_roundtrip"
   ],
   "note": "C16_header_roundtrip: C16. The header is the first `4 + ow + 4 + 4` bytes of a serialised message; parsing any stream that begins with it gives back magic, opcode, length and checksum (no payload yet); parsing a stream with fewer bytes throws."
  },
  {
   "property": "C17",
   "status": "proved",
   "theorems": [
    "Salticidae.C17_message_payload",
    "Salticidae.C17_verify",
    "Salticidae.C17_set_payload_stream"
   ],
   "note": "C17_message_payload: C17. A message built from a typed message whose stream holds the (unread) bytes `p` exists; it announces `p.length` (if below 4 GiB), verifies, serialises to its header followed by `p`, and hands out exactly `p` once, after which asking again throws. C17_verify: C17, received side: a header parsed from the wire completed with received payload `p` verifies exactly if the announced checksum is the checksum of `p`; and a message received as sent verifies. C17_set_payload_stream: C17, `set_payload` with a stream: the message then carries everything that was ever written to the stream, also what has been read from it meanwhile; when nothing has been read that is the stream's content."
  },
  {
   "property": "C18",
   "status": "partial",
   "theorems": [
    "Salticidae.C18_violated",
    "Salticidae.C18_violated_4g",
    "Salticidae.C18_violated_blank",
    "Salticidae.C18_frame_partial",
    "Salticidae.C18_readable",
    "Salticidae.C18_fields"
   ],
   "note": "The code violates the full statement; the negation is proved with a concrete execution, and the part that holds is proved for all inputs. Holds: C18_frame_partial: C18, proved part: after any operations on a message, however it was made, as long as a payload is there (it can be read) and is shorter than 4 GiB, the message serialises to a well-formed frame. Missing: messages without a payload or whose payload was consumed, and payloads of 4 GiB or more. C18_readable: After any operations on a message, a payload can be read exactly as long as one was given to the message after the last time its payload was taken. C18_fields: After any operations the frame starts with the magic number and the opcode that were set last; the payload, while it can be read, is the one that was set last. Fails: C18_violated: C18 is violated: after the payload was taken with get_payload, the message still serialises, to a header announcing the old length with nothing behind it (a receiver then waits for bytes that never come and swallows the next message). C18_violated_4g: C18 is also violated without consuming anything: a payload of 4 GiB is announced as empty. C18_violated_blank: C18 is violated from the start by a default-constructed message: its length field is whatever was in memory."
  },
  {
   "property": "C19",
   "status": "proved",
   "theorems": [
    "Salticidae.C19_hash_list"
   ],
   "note": "C19_hash_list: C19. For every list of fewer than 2^32 set hashes (of `n` words of `w` bytes), a stream that starts with what gen_hash_list appended parses back to the list, consuming exactly that; if the stream ends anywhere before the end of the list, parsing throws."
  },
  {
   "property": "C20",
   "status": "proved",
   "theorems": [
    "Salticidae.C20_segbuffer_fifo",
    "Salticidae.C20_empty"
   ],
   "note": "C20_segbuffer_fifo: C20. After any sequence of operations on a new buffer, the popped byte strings are those of the byte list, and size() is the number of bytes left (as a size_t); popping everything then returns exactly what the byte list still holds. C20_empty: C20, `empty()`: after any sequence of operations, a buffer that says it is empty holds nothing, and when no empty byte string was ever pushed or put back, one that holds nothing says so."
  },
  {
   "property": "C21",
   "status": "partial",
   "theorems": [
    "Salticidae.C21_violated",
    "Salticidae.C21_move_pop_partial"
   ],
   "note": "The code violates the full statement; the negation is proved with a concrete execution, and the part that holds is proved for all inputs. Holds: C21_move_pop_partial: C21, proved part: on a reachable non-empty buffer whose first segment has not been partly popped, move_pop returns exactly the unread bytes of the first segment, keeps all the others, and size() drops by that many. Missing: a first segment that a pop has cut. Fails: C21_violated: C21 is violated: after a partial pop, move_pop hands out the bytes already popped once more, and size() wraps to a huge number."
  },
  {
   "property": "C22",
   "status": "proved",
   "theorems": [
    "Salticidae.C22_chunking",
    "Salticidae.C22_read_progress"
   ],
   "note": "C22_chunking: C22. Let the peer send well-formed messages `ms` followed by `tail` (less than one more message), in whatever pieces and with whatever callbacks in between, to a connection whose message queue has room. Whenever the socket has been drained, reading is enabled and no termination is under way, exactly `ms` have been delivered, once each and in order, and the connection holds back exactly `tail`. C22_read_progress: C22, progress: a readability callback on a live connection with data in the socket takes at least one byte out of the socket, or finds the receive buffer at its limit (unless the first recv fails)."
  },
  {
   "property": "C23",
   "status": "proved",
   "theorems": [
    "Salticidae.C23_backpressure"
   ],
   "note": "C23_backpressure: C23. In every history without an oversized header, the messages that arrived are: those delivered so far, then at most one waiting for room in the queue, then those of the bytes still in the connection or the socket. In particular the delivered messages are a prefix of the messages of the byte stream, for all refusals of the queue."
  },
  {
   "property": "C24",
   "status": "partial",
   "theorems": [
    "Salticidae.C24_violated",
    "Salticidae.C24_corrupted_partial"
   ],
   "note": "The code violates the full statement; the negation is proved with a concrete execution, and the part that holds is proved for all inputs. Holds: C24_corrupted_partial: C24, proved part: a corrupted message is never delivered; what is delivered is always a prefix of the intact messages; and whenever the last parsing loop did not end with dropping a message (`brk = false`), all intact messages have been delivered, also those after corrupted ones. Missing: right after dropping a message, intact ones behind it may still be held back. Fails: C24_violated: C24 is violated: after a corrupted message the loop is left, so an intact message received in the same read is not delivered until some later data arrives."
  },
  {
   "property": "C25",
   "status": "partial",
   "theorems": [
    "Salticidae.C25_violated",
    "Salticidae.C25_violated_crash",
    "Salticidae.C25_oversized_partial"
   ],
   "note": "The code violates the full statement; the negation is proved with a concrete execution, and the part that holds is proved for all inputs. Holds: C25_oversized_partial: C25, proved part: no message longer than max_msg_size is ever delivered; and either everything delivered lies before any oversized header, or an oversized header has been received and the termination of the connection has been requested (or the process has died); after the teardown nothing more is delivered. Missing: the time between the request and the teardown, and the crash. Fails: C25_violated: C25 is violated: data behind the oversized header that is still in the socket is read and parsed before the connection is torn down, and delivered. C25_violated_crash: C25 is also violated in a second way: when the oversized header is met while retrying after a refused enqueue, the exception leaves the timer callback and the process terminates."
  },
  {
   "property": "C26",
   "status": "proved",
   "theorems": [
    "Salticidae.C26_bounded_buffer"
   ],
   "note": "C26_bounded_buffer: C26. Whatever happens, the receive buffer has at most `maxSegs` segments of at most `chunk` bytes, the byte counter is right, and what is held back in total is at most `maxSegs * chunk` bytes plus one header."
  },
  {
   "property": "C27",
   "status": "partial",
   "theorems": [
    "Salticidae.C27_violated",
    "Salticidae.C27_violated_forever",
    "Salticidae.C27_no_stall_partial"
   ],
   "note": "The code violates the full statement; the negation is proved with a concrete execution, and the part that holds is proved for all inputs. Holds: C27_no_stall_partial: C27, proved part: a live connection waits for data, has a retry pending, or has its receive buffer filled to the limit. Missing: the last case, where the connection can be stuck. Fails: C27_violated: C27 is violated: one read callback that fills the buffer with full chunks disables reading and returns without parsing. C27_violated_forever: C27 violated, for good: in that state two complete messages are in the buffer, and no sequence of events whatsoever makes the connection deliver anything."
  },
  {
   "property": "C28",
   "status": "partial",
   "theorems": [
    "Salticidae.C28_violated",
    "Salticidae.C28_close_partial"
   ],
   "note": "The code violates the full statement; the negation is proved with a concrete execution, and the part that holds is proved for all inputs. Holds: C28_close_partial: C28, proved part: if the socket had been drained by an earlier callback (reading enabled, nothing waiting, no message just dropped) before the close is noticed, everything has been delivered, and stays delivered through close and teardown. Missing: closes noticed by the callback that also reads the last data, and messages waiting for the queue at that time. Fails: C28_violated: C28 is violated: if the data is a multiple of the chunk size, the close is noticed in the same callback and the buffered messages are never parsed."
  },
  {
   "property": "C29",
   "status": "partial",
   "theorems": [
    "Salticidae.C29_violated",
    "Salticidae.C29_magic_partial"
   ],
   "note": "The code violates the full statement; the negation is proved with a concrete execution, and the part that holds is proved for all inputs. Holds: C29_magic_partial: C29, proved part: a delivered message reports the magic value that was on the wire (so a handler can check it): the delivered messages are, field by field, messages of the byte stream. Fails: C29_violated: C29 is violated: a message with magic 5 is delivered by a network configured with magic 1."
  },
  {
   "property": "C30",
   "status": "proved",
   "theorems": [
    "Salticidae.C30_wire_bytes"
   ],
   "note": "C30_wire_bytes: C30. In every history the bytes the kernel has taken, followed by the bytes still queued, are exactly the concatenation of the accepted writes, in order (in a process that has not died; `written` is that concatenation)."
  },
  {
   "property": "C31",
   "status": "partial",
   "theorems": [
    "Salticidae.C31_violated",
    "Salticidae.C31_sent_partial"
   ],
   "note": "The code violates the full statement; the negation is proved with a concrete execution, and the part that holds is proved for all inputs. Holds: C31_sent_partial: C31, proved part: if no write is empty, a live connection with unsent data always waits for writability or for a notification; a writability callback with a kernel that takes something makes progress; and one in which the kernel takes all it is offered sends everything. Missing: histories with empty writes. Fails: C31_violated: C31 is violated: an empty write ends the sending loop as if the queue were empty, and the data behind it is left alone."
  },
  {
   "property": "C32",
   "status": "proved",
   "theorems": [
    "Salticidae.C32_end_to_end"
   ],
   "note": "C32_end_to_end: C32. One end sends messages (opcode, payload; payloads within the other end's limit) by `send_msg`, i.e. by writing their serialised form, in a history `sevs` of its connection with arbitrary kernel results; the other end has the same opcode type, hash and byte order (its own limits `maxMsg`, `chunk`, `maxSegs`) and runs any history `revs` in which it receives (a prefix of) what the kernel took. Then what it has delivered is a prefix of the messages sent, unchanged and in order; and if everything written has arrived and been read, no message waits for the queue, reading is enabled and no termination is under way, it is all of them."
  },
  {
   "property": "C33",
   "status": "proved",
   "theorems": [
    "Salticidae.C33_dispatch",
    "Salticidae.C33_burst",
    "Salticidae.C33_survives"
   ],
   "note": "C33_dispatch: C33. In every run of a started network, for every burst size, behaviour of the handlers, history of registrations and interleaving with the worker threads: the messages handled so far are, in order, the first ones accepted into the queue, each exactly once; each was given to the handler registered last for its opcode at that time, or to nobody if there was none, and nothing else was called; the connections asked to terminate are exactly those of the messages on which a handler threw, in order; the loop dies only from an exception which `reg_handler` does not catch. At rest every accepted message has been handled. C33_burst: C33, the burst size. Between two wake-ups at most `burst` messages are handled (for `burst` ≥ 1; 0 means no limit). C33_survives: C33, failing handlers. With only `reg_handler` handlers whose failures are std::exceptions (what parsing throws) the loop never dies."
  },
  {
   "property": "C34",
   "status": "partial",
   "theorems": [
    "Salticidae.C34_violated",
    "Salticidae.C34_timely_partial",
    "Salticidae.C34_bounded_partial",
    "Salticidae.C34_single_producer_partial",
    "Salticidae.C34_fifo_partial",
    "Salticidae.C34_empty_partial",
    "Salticidae.C34_drained_partial",
    "Salticidae.C34_violated_any",
    "Salticidae.C34_in_turn_partial"
   ],
   "note": "The code violates the full statement; the negation is proved with a concrete execution, and the part that holds is proved for all inputs. Holds: C34_timely_partial: One consumer, any producers: a FIFO queue, if no block is given back while the producer that linked it in an unbounded enqueue is still about to clear its mark. C34_bounded_partial: So it is when every enqueue is bounded, … C34_single_producer_partial: … and when there is one producer. C34_fifo_partial: Without rewinds, what has been dequeued is, in this order, the beginning of what has been enqueued; and what each thread has enqueued is there in the order of its calls. C34_empty_partial: A dequeue that finds nothing: everything whose enqueue had returned before the dequeue was called has been dequeued. C34_drained_partial: When no operation is running, and a dequeue that runs alone then finds nothing: every element enqueued has been dequeued exactly once, and nothing else has; in the order of the calls of each producer. C34_in_turn_partial: Operations one after the other, each in any thread: those of a FIFO queue. Fails: C34_violated: A producer that clears the mark of a block late makes another take a block outside the queue for its tail: an element of an enqueue that returned true is lost. C34_violated_any: It is false whatever the size of the blocks (in the code it is 4096): the calls and returns of `lateClearAny` are not those of a queue."
  },
  {
   "property": "C35",
   "status": "partial",
   "theorems": [
    "Salticidae.C35_violated_any",
    "Salticidae.C35_violated_empty",
    "Salticidae.C35_violated_count",
    "Salticidae.C35_violated",
    "Salticidae.C35_bound",
    "Salticidae.C35_bound_quiet",
    "Salticidae.C35_bound_multi_partial",
    "Salticidae.C35_refused_changes_nothing",
    "Salticidae.C35_refused_partial",
    "Salticidae.C35_never_when_empty_partial",
    "Salticidae.C35_accepts_capacity_partial",
    "Salticidae.C35_new_partial"
   ],
   "note": "The code violates the full statement; the negation is proved with a concrete execution, and the part that holds is proved for all inputs. Holds: C35_bound: One consumer, any bounded producers, any schedule: at every moment the queue holds at most what 1 + max(c/B, 1) blocks can. C35_bound_quiet: The same seen from outside when nothing is running: accepted at most that many more than dequeued. C35_bound_multi_partial: With any consumers (MPMCQueue): if none gets its reference to the block it read as the queue's head when the head has moved on. C35_refused_changes_nothing: A refused enqueue changes nothing: whenever no operation is running, what the accepted enqueues gave, and nothing else, is what has been dequeued and what is in the queue. C35_refused_partial: Operations one after the other (in any threads, of either queue): an enqueue is refused only if the queue holds what its blocks beyond the first can hold. C35_never_when_empty_partial: So after set_capacity it is not refused when the queue is empty, … C35_accepts_capacity_partial: … nor when it holds fewer than c elements, if c is a multiple of the size of a block; … C35_new_partial: … and before the first dequeue it is not refused, whatever c, when fewer than 1 + max(c/B, 1) blocks of elements (which is more than c) have been accepted. Fails: C35_violated_any: It is false whatever the size of the blocks. C35_violated_empty: An enqueue is refused though the queue is empty: a stalled producer's reference keeps the used-up block from the free list. C35_violated_count: An empty queue with capacity 3 accepts two elements: a used-up block returns to the free list only when the next one is dequeued from. C35_violated: The full statement fails."
  },
  {
   "property": "C36",
   "status": "partial",
   "theorems": [
    "Salticidae.C36_violated",
    "Salticidae.C36_timely_partial",
    "Salticidae.C36_bounded_partial",
    "Salticidae.C36_single_producer_partial",
    "Salticidae.C36_violated_any",
    "Salticidae.C36_in_turn_partial"
   ],
   "note": "The code violates the full statement; the negation is proved with a concrete execution, and the part that holds is proved for all inputs. Holds: C36_timely_partial: It does, wherever in the history and in the blocks, if no block is given back while the producer that linked it in an unbounded enqueue is still about to clear its mark; … C36_bounded_partial: … so it does when every enqueue is bounded, … C36_single_producer_partial: … and when there is one producer. C36_in_turn_partial: Operations one after the other, each in any thread: an element put back is the next one dequeued. Missing: operations that overlap. Fails: C36_violated: The consumer puts 8 back and dequeues 9: a late producer takes the block used by `rewind` for the queue's tail and overwrites the element. C36_violated_any: It is false whatever the size of the blocks: the consumer puts back 8, and gets 9."
  },
  {
   "property": "C37",
   "status": "partial",
   "theorems": [
    "Salticidae.C37_violated",
    "Salticidae.C37_conserved_partial",
    "Salticidae.C37_linearizable_partial",
    "Salticidae.C37_violated_any",
    "Salticidae.C37_in_turn_partial"
   ],
   "note": "The code violates the full statement; the negation is proved with a concrete execution, and the part that holds is proved for all inputs. Holds: C37_conserved_partial: It is so (and the calls and returns are those of a FIFO queue) if no block is given back while the producer that linked it in an unbounded enqueue is still about to clear its mark, and no consumer gets its reference to the block it read as the queue's head when the head has moved on. C37_linearizable_partial: In timely executions in which no consumer acts on a block that has been reused since it read the head, the calls and returns are those of a FIFO queue. Missing: the other executions. C37_in_turn_partial: Operations one after the other, each in any thread: when the queue is said to be empty, all elements have been dequeued, once. Missing: operations that overlap. Fails: C37_violated: An element is lost and try_dequeue says the queue is empty: a late consumer moves the head past a block that is in use again. C37_violated_any: It is false whatever the size of the blocks: at the end the queue is found empty though the element 3, accepted, has not been dequeued."
  },
  {
   "property": "C38",
   "status": "proved",
   "theorems": [
    "Salticidae.C38_one_owner",
    "Salticidae.C38_list",
    "Salticidae.C38_no_loss"
   ],
   "note": "C38_one_owner: C38, first part: whatever threads do, as long as each pushes only nodes that are in use and releases only references it holds, a node is returned by pop only while it is free, and it is free from a push to the next pop: it never has two owners. C38_list: C38, second part: the list is never cyclic and contains only free nodes; a free node that is not in it is one that some thread is busy with. C38_no_loss: C38, third part: when no thread is in an operation and no references are held, the free nodes are in the list, each once, so none is lost."
  },
  {
   "property": "C39",
   "status": "proved",
   "theorems": [
    "Salticidae.C39_no_lost_wakeup",
    "Salticidae.C39_served"
   ],
   "note": "C39_no_lost_wakeup: C39. At every moment of every run, with any number of producers and consumers (MPSC: `strict` false, MPMC: `strict` true): if an element is in the queue, then the descriptor is readable, or a callback is running that will look at the queue again or is about to make the descriptor readable, or some `enqueue` has not returned yet and is still to signal; so when all enqueues have returned, all callbacks have ended and the descriptor is not readable, the queue is empty: no element is left unnoticed. Elements come out in the order they went in. C39_served: C39, second part: the wake-up is used. At every moment of every run at which all enqueues have returned and all callbacks have ended while elements are in the queue, the event loop of any consumer can take the next step, and that consumer's callback alone, run to its end with nobody else acting, hands out all of them: nothing is left, and everything accepted has been handed out in order."
  },
  {
   "property": "C40",
   "status": "proved",
   "theorems": [
    "Salticidae.C40_once_in_order",
    "Salticidae.C40_progress"
   ],
   "note": "C40_once_in_order: C40. In every run of a ThreadCall that is neither stopped nor destroyed, for every burst size: the calls executed so far, in the order in which they were executed, followed by the calls still queued, are exactly the accepted calls in the order in which they were accepted, none twice; synchronous callers have been given exactly the own results of calls executed, in order. When everything is at rest, all accepted calls have been executed and all their results handed out. The order of acceptance never changes: later calls come after all calls accepted before. C40_progress: C40, progress. Whatever has happened before (also after `stop`), the event loop needs at most `12 * queued + 11` further steps if no more calls arrive, and as long as it is not at rest (and no `enqueue` is in progress) it has a step to make: it cannot get stuck with a call in the queue, whatever the burst size."
  },
  {
   "property": "C41",
   "status": "partial",
   "theorems": [
    "Salticidae.C41_violated",
    "Salticidae.C41_returns_partial",
    "Salticidae.C41_destroyed_partial"
   ],
   "note": "The code violates the full statement; the negation is proved with a concrete execution, and the part that holds is proved for all inputs. Holds: C41_returns_partial: What holds of C41: as long as the ThreadCall is not destroyed, stopped or not, every accepted synchronous call has been given a result when everything is at rest: its own result, or the error NOT_AVAIL if `stop` had been called (and rest is reached, C40_progress). After `stop` has been called the callbacks of calls still queued are not run. Missing: destruction with calls queued. C41_destroyed_partial: What destruction does, for every run that ends with it: the calls deleted are exactly the accepted ones that had not been executed, in order, so the callers that never get an answer are those of deleted calls and nobody else; and nothing can be done with the ThreadCall any more. Missing: an answer for those callers. Fails: C41_violated: The destructor deletes queued calls without telling their callers, who wait for ever."
  },
  {
   "property": "C42",
   "status": "proved",
   "theorems": [
    "Salticidae.C42_rc_lifetime"
   ],
   "note": "C42_rc_lifetime: C42. Any program over any number of strong and weak handles runs without touching a freed control block and without destroying an object twice; after it, * an object is not yet destroyed iff some strong handle owns it; * a control block is not yet freed iff some strong or weak handle refers to it; * `get_cnt` of an owning handle is the number of strong handles sharing its control block, which are handles to the same object, and owners of one object share one control block; * upgrading a weak handle gives a handle to its object while the object lives, otherwise null."
  },
  {
   "property": "C43",
   "status": "partial",
   "theorems": [
    "Salticidae.C43_violated",
    "Salticidae.C43_violated_dangling",
    "Salticidae.C43_moved_partial",
    "Salticidae.C43_tests_partial"
   ],
   "note": "The code violates the full statement; the negation is proved with a concrete execution, and the part that holds is proved for all inputs. Holds: C43_moved_partial: C43, the rest: after any program, moving from slot `s` to another slot leaves in `s` a handle that owns nothing (`get_cnt` 0), the destination receives exactly what the source held, and dropping or overwriting the moved-from handle destroys nothing and frees nothing. C43_tests_partial: In programs that move no strong handle, a handle tests true exactly when it points at an object, and that object is then alive and counts the handle. Missing: programs that move (`C43_violated_dangling`). Fails: C43_violated: C43 fails: the moved-from handle still points at the object. C43_violated_dangling: C43 fails badly: a program that only moves and drops ends with a handle that tests true although its object has been destroyed."
  },
  {
   "property": "C44",
   "status": "partial",
   "theorems": [
    "Salticidae.C44_violated",
    "Salticidae.C44_violated_weak",
    "Salticidae.C44_violated_many",
    "Salticidae.C44_object_partial",
    "Salticidae.C44_control_partial",
    "Salticidae.C44_serial_partial",
    "Salticidae.C44_last_in_turn_partial"
   ],
   "note": "The code violates the full statement; the negation is proved with a concrete execution, and the part that holds is proved for all inputs. Holds: C44_object_partial: What holds of C44 on all runs without upgrades, whatever the schedule and the number of threads: the object is destroyed at most once, never while an ArcObj handle exists, and exactly once when everything has come to rest without ArcObj handles. (While the run has not used freed memory.) C44_control_partial: What holds of C44 for the control block: if fewer than 256 operations are ever in progress at once, no weak handle is created while a thread that dropped the last weak handle is about to look at the strong count, and upgrades complete only while ArcObj handles exist (C45), then nothing is used after it is freed and the control block is freed at most once, and only when no handle is left. Missing: freedom from leaks (see the next theorem), and runs outside the conditions, where the claim is false. C44_serial_partial: When the operations on handles do not overlap (at most one in progress at any time), nothing leaks either: once all handles are gone the object has been destroyed once and the control block freed once. This is the full statement of C44 for handles used under a lock. C44_last_in_turn_partial: It is enough that the end is in turn: whatever the threads did at the same time before (upgrades too, if they complete while ArcObj handles exist), if at some moment a handle is left and nothing is in progress, and from then on the operations do not overlap, then once all handles are gone the object has been destroyed once and the control block freed once. Missing: last drops that overlap others. Fails: C44_violated: Two ArcObj handles dropped at the same time: the control block is never freed. C44_violated_weak: A weak handle dropped while another thread makes a weak handle and drops the last strong one: the control block is freed although a weak handle exists, whose destructor then uses it. C44_violated_many: No weak handles at all, but 257 handles dropped at the same time: the 8-bit counter wraps and the control block is freed while other threads still have to decrement it."
  },
  {
   "property": "C45",
   "status": "partial",
   "theorems": [
    "Salticidae.C45_violated",
    "Salticidae.C45_upgrade_partial"
   ],
   "note": "The code violates the full statement; the negation is proved with a concrete execution, and the part that holds is proved for all inputs. Holds: C45_upgrade_partial: What holds of C45: if the second half of every upgrade takes place while the count is still positive, then every ArcObj handle, also one obtained by upgrading, refers to a live object; and an upgrade that finds the count at zero creates no handle. Missing: upgrades overtaken by the drop of the last handle, where the claim is false. Fails: C45_violated: Two threads: one reads a positive count, the other drops the last handle and destroys the object, the first takes its reference."
  },
  {
   "property": "C46",
   "status": "partial",
   "theorems": [
    "Salticidae.C46_violated",
    "Salticidae.C46_box_partial"
   ],
   "note": "The code violates the full statement; the negation is proved with a concrete execution, and the part that holds is proved for all inputs. Holds: C46_box_partial: C46, the rest: programs that do not use static_pointer_cast. Fails: C46_violated: C46 fails: static_pointer_cast leaves the source box owning the object too, and it is destroyed twice."
  },
  {
   "property": "C47",
   "status": "proved",
   "theorems": [
    "Salticidae.C47_torn_down_once",
    "Salticidae.C47_not_otherwise"
   ],
   "note": "C47_torn_down_once: Whatever the threads do and however often termination is asked for: the teardown hooks of a connection run at most once, its descriptor is closed at most once (and when it is erased from the pool it is itself that is erased), and the callback is told `disconnected` at most once; and once everything asked for has been executed, a connection whose termination was asked for has had each of these exactly once. C47_not_otherwise: A connection nobody asked to terminate is alive: no hook of its teardown has run, its descriptor is open and registered in the pool."
  },
  {
   "property": "C48",
   "status": "partial",
   "theorems": [
    "Salticidae.C48_violated",
    "Salticidae.C48_violated_stale",
    "Salticidae.C48_connected_once",
    "Salticidae.C48_ordered_partial"
   ],
   "note": "The code violates the full statement; the negation is proved with a concrete execution, and the part that holds is proved for all inputs. Holds: C48_connected_once: For every schedule, `connected` is reported at most once. C48_ordered_partial: The property for every schedule in which no connection attempt completes while the dispatcher has a termination of that connection waiting. Missing: the schedules of `C48_violated`. Fails: C48_violated: The code does not have it: `connected` is reported after `disconnected`, for a descriptor that has been closed. C48_violated_stale: ... and the worker polls that descriptor."
  },
  {
   "property": "C49",
   "status": "partial",
   "theorems": [
    "Salticidae.C49_violated",
    "Salticidae.C49_tls_partial",
    "Salticidae.C49_plain_partial"
   ],
   "note": "The code violates the full statement; the negation is proved with a concrete execution, and the part that holds is proved for all inputs. Holds: C49_tls_partial: With TLS the property holds for every schedule. C49_plain_partial: Without TLS, nothing is read before the callback has been called. Missing: its answer has no effect. Fails: C49_violated: The code does not have it without TLS: the answer `false` is ignored."
  },
  {
   "property": "C50",
   "status": "partial",
   "theorems": [
    "Salticidae.C50_violated",
    "Salticidae.C50_least_loaded_partial"
   ],
   "note": "The code violates the full statement; the negation is proved with a concrete execution, and the part that holds is proved for all inputs. Holds: C50_least_loaded_partial: Worker counters equal the number of connections each worker serves, and new connections go to a worker that serves the fewest, for every number of workers and every schedule without that race. Missing: schedules with it. Fails: C50_violated: The code does not have it: after the race of `C48_violated` a worker's counter has gone below zero (to 2^64 - 1) and the worker is passed over for one that serves more connections."
  },
  {
   "property": "C51",
   "status": "partial",
   "theorems": [
    "Salticidae.C51_violated",
    "Salticidae.C51_violated_forever",
    "Salticidae.C51_accepts_partial"
   ],
   "note": "The code violates the full statement; the negation is proved with a concrete execution, and the part that holds is proved for all inputs. Holds: C51_accepts_partial: As long as accept() does not fail, every client is accepted. Missing: survival of a failure. Fails: C51_violated: The code does not have it: one failure of accept() ends listening, for good unless listen() is called again. C51_violated_forever: After a failed accept no client is accepted any more, whatever happens, unless the program calls listen again."
  },
  {
   "property": "C52",
   "status": "partial",
   "theorems": [
    "Salticidae.C52_never_minus_one",
    "Salticidae.C52_violated",
    "Salticidae.C52_identifies_partial"
   ],
   "note": "The code violates the full statement; the negation is proved with a concrete execution, and the part that holds is proved for all inputs. Holds: C52_never_minus_one: No operation gets the id -1 (used for errors that belong to no operation); ids are in 0..65535. C52_identifies_partial: Among any 65536 consecutive operations of any number, an error reported with the id of one of them belongs to it, and every failure is reported. Missing: longer histories. Fails: C52_violated: The code does not have it: ids repeat after 65536 operations, so a failure of operation 65536 is reported with the id of operation 0."
  },
  {
   "property": "C53",
   "status": "partial",
   "theorems": [
    "Salticidae.C53_violated",
    "Salticidae.C53_never_stale",
    "Salticidae.C53_addressable_partial"
   ],
   "note": "The code violates the full statement; the negation is proved with a concrete execution, and the part that holds is proved for all inputs. Holds: C53_never_stale: Whatever happens, a message that is not refused goes to the client connected from that address now: in particular the call throws when nobody is connected from there. C53_addressable_partial: When connections from one address do not overlap, `send_msg` does what it should. Missing: the case of C53_violated. Fails: C53_violated: Not so: the client at 7 reconnects, and the teardown of its former connection removes the entry of the new one: the connected client cannot be reached."
  },
  {
   "property": "C54",
   "status": "partial",
   "theorems": [
    "Salticidae.C54_violated",
    "Salticidae.C54_violated_new_nonce",
    "Salticidae.C54_agree_partial"
   ],
   "note": "The code violates the full statement; the negation is proved with a concrete execution, and the part that holds is proved for all inputs. Holds: C54_agree_partial: C54, what holds: if no handshake arrives at a node that is connected already, and no connection is torn down before the four handshake messages have been processed, then in every order the connection dialled by the node with the lower nonce is kept by both, and neither end asks for its termination. Missing: the two conditions. Fails: C54_violated: C54 fails: node `true` is connected over the connection it dialled when the handshake of the other one arrives; it drops the first and accepts the second, but the other node, which has not seen the end of the first yet, ignores the answer. At the end `true` is connected and `false` is not. C54_violated_new_nonce: It fails also when no handshake arrives at a connected node: `true`, whose nonce is the lower one, refuses the connection that `false` dialled, and `false` tears it down before it processes the handshake of the other connection; it then draws a new nonce, and that one loses. At the end neither is connected."
  },
  {
   "property": "C55",
   "status": "partial",
   "theorems": [
    "Salticidae.C55_violated",
    "Salticidae.C55_violated_disagree",
    "Salticidae.C55_agree_partial"
   ],
   "note": "The code violates the full statement; the negation is proved with a concrete execution, and the part that holds is proved for all inputs. Holds: C55_agree_partial: C55, what holds: for every other nonce both ends keep the connection, in every schedule. Missing: the two nonces. Fails: C55_violated: C55 fails: with the nonce 65535 or 65536 the node that was dialled accepts the connection, reporting it to its user, and the one that dialled refuses it. C55_violated_disagree: The ends disagree when both handshake messages have been processed, for both of these nonces."
  },
  {
   "property": "C56",
   "status": "partial",
   "theorems": [
    "Salticidae.C56_violated_any_number",
    "Salticidae.C56_violated",
    "Salticidae.C56_stop",
    "Salticidae.C56_violated_retry",
    "Salticidae.C56_retry_partial"
   ],
   "note": "The code violates the full statement; the negation is proved with a concrete execution, and the part that holds is proved for all inputs. Holds: C56_stop: After conn_peer(pid, 0) the peer is not dialled any more until the next conn_peer(pid, _). C56_retry_partial: When no peer that is connected asks for the replacement of its connection, conn_peer(pid, n) with n < 0 keeps on dialling. Fails: C56_violated_any_number: The limit does not limit: whenever conn_peer is called with any n other than 0 for a disconnected peer, any number of dials can follow, all of them failing. C56_violated: conn_peer with 3 tries: 4 dials, none of which succeeds. C56_violated_retry: The peer is disconnected and will never be dialled."
  },
  {
   "property": "C57",
   "status": "partial",
   "theorems": [
    "Salticidae.C57_violated",
    "Salticidae.C57_violated_two_identities",
    "Salticidae.C57_violated_stale_dial",
    "Salticidae.C57_follows_partial"
   ],
   "note": "The code violates the full statement; the negation is proved with a concrete execution, and the part that holds is proved for all inputs. Holds: C57_follows_partial: In orderly histories the peers' states follow their connections. Fails: C57_violated: It stays reported connected, for ever. C57_violated_two_identities: Peer 5 cannot be connected again. C57_violated_stale_dial: The teardown of the first connection disconnects the peer."
  },
  {
   "property": "C58",
   "status": "partial",
   "theorems": [
    "Salticidae.C58_membership",
    "Salticidae.C58_errors",
    "Salticidae.C58_violated_big_endian",
    "Salticidae.C58_violated",
    "Salticidae.C58_has_peer_partial"
   ],
   "note": "The code violates the full statement; the negation is proved with a concrete execution, and the part that holds is proved for all inputs. Holds: C58_membership: has_peer(pid) is true exactly when the last of `add_peer(pid)` and `del_peer(pid)` was an add_peer. C58_errors: Adding a known peer reports an error and changes nothing else; so do deleting, connecting and giving an address to a peer that is not known. The good cases of adding and deleting report no error. C58_has_peer_partial: The full statement on little-endian hosts. Fails: C58_violated_big_endian: On big-endian hosts has_peer is false for every peer: the byte at the lowest address is the most significant one of the count. C58_violated: has_peer is false for a peer that was added, on a big-endian host."
  },
  {
   "property": "C59",
   "status": "partial",
   "theorems": [
    "Salticidae.C59_violated",
    "Salticidae.C59_violated_same_address",
    "Salticidae.C59_count_partial",
    "Salticidae.C59_violated_big_endian",
    "Salticidae.C59_little_partial"
   ],
   "note": "The code violates the full statement; the negation is proved with a concrete execution, and the part that holds is proved for all inputs. Holds: C59_count_partial: Partial: if no other connection ever had the address of a connection from outside, the table has exactly one entry for each waiting connection; so get_npending() is right as long as it is at most 1 (modulo 256). Missing: larger counts, where the value is undefined or wrong (`C59_violated`), and repeated addresses (`C59_violated_same_address`). C59_little_partial: On little-endian hosts it is the lowest byte of the number, `getNpending` in the theorems above. Fails: C59_violated: The count is read back as a `bool`: with two pending connections the value is not defined. C59_violated_same_address: Two connections with one address (a client that reconnects from the same port before its old connection has been torn down): the teardown of the old one takes the new one off the table, which is waiting all the same. C59_violated_big_endian: On big-endian hosts get_npending is 0 whatever waits."
  },
  {
   "property": "C60",
   "status": "proved",
   "theorems": [
    "Salticidae.C60_one_unanswered",
    "Salticidae.C60_period",
    "Salticidae.C60_silent_dropped",
    "Salticidae.C60_answers_kept"
   ],
   "note": "C60_one_unanswered: C60, first part: while connected a node has at most one unanswered heartbeat. C60_period: C60, second part: heartbeats are at least ping_period apart. C60_silent_dropped: C60, third part: a peer that has been silent since the heartbeat of time `t` is dropped within conn_timeout of it, up to the delay of the two event loops involved (the call that sets the timeout, and the timeout itself). C60_answers_kept: C60, fourth part: a peer that answers every heartbeat within `R` is never dropped, when `R` and the longest time between heartbeats (1.5 ping_period) are below conn_timeout by more than the delay of the event loops, and the timeout set when the connection was set up was not due at once."
  },
  {
   "property": "C61",
   "status": "partial",
   "theorems": [
    "Salticidae.C61_violated",
    "Salticidae.C61_violated_race",
    "Salticidae.C61_violated_full",
    "Salticidae.C61_survive_partial",
    "Salticidae.C61_bytes_partial"
   ],
   "note": "The code violates the full statement; the negation is proved with a concrete execution, and the part that holds is proved for all inputs. Holds: C61_survive_partial: C61, proved part: it holds when connections are lost between messages, no message is written to the old connection after its buffer has been moved, and there is room in the new buffer. Missing: see `C61_violated`, `C61_violated_race` and `C61_violated_full`. C61_bytes_partial: C61, proved part, for every history: the bytes sent on the connection that takes over, and those queued for it, are the segments written to it, in order. Fails: C61_violated: C61 fails: a connection is lost when the kernel has taken a part of a message; the rest of the message is sent on the next connection. C61_violated_race: C61 fails also because a message is accepted by the old connection after its buffer has been moved and before the new one takes over: it is lost. C61_violated_full: C61 fails also because the result of write() is ignored when the messages are moved: with a bounded send buffer that is full they are lost."
  },
  {
   "property": "C62",
   "status": "proved",
   "theorems": [
    "Salticidae.C62_multicast",
    "Salticidae.C62_unknown"
   ],
   "note": "C62_multicast: multicast_msg to known peers writes the message once for each of them to that peer's connection and nothing else; an error is reported exactly when some send buffer refused it, and no buffer with room is affected by that. C62_unknown: When a listed peer is unknown, the peers before it get the message, the ones after it do not, and the error says that a peer does not exist."
  },
  {
   "property": "C63",
   "status": "proved",
   "theorems": [
    "Salticidae.C63_reported",
    "Salticidae.C63_only_known",
    "Salticidae.C63_never"
   ],
   "note": "C63_reported: A handshake from an identity that was not added, on a live connection from outside, is reported to the unknown-peer callback, the termination of the connection is requested, and nothing else happens: no report to the peer callback, no change to any peer or to the connection any peer uses. C63_only_known: A connection is reported to the peer callback as connected only while a handshake message on it is processed whose identity is that of a member, and from then on it is that peer's connection; no other event gives a peer a connection (adding the peer gives it a terminated placeholder). C63_never: A connection from outside on which every handshake message that was processed came from an identity that was not a member at that moment never is any peer's connection and is never given to the peer callback."
  },
  {
   "property": "C64",
   "status": "partial",
   "theorems": [
    "Salticidae.C64_violated",
    "Salticidae.C64_split_partial"
   ],
   "note": "The code violates the full statement; the negation is proved with a concrete execution, and the part that holds is proved for all inputs. Holds: C64_split_partial: C64, the rest: for every non-empty delimiter the call returns after finitely many iterations, and the pieces are the left-to-right splitting of the string, which is unique. Fails: C64_violated: C64 fails: with an empty delimiter `split` never returns."
  },
  {
   "property": "C65",
   "status": "proved",
   "theorems": [
    "Salticidae.C65_trim"
   ],
   "note": "C65_trim: C65. `trim` removes exactly the leading and trailing blanks, this determines its result, it is idempotent, and `trim_all` is `trim` on every element."
  },
  {
   "property": "C66",
   "status": "proved",
   "theorems": [
    "Salticidae.C66_config_precedence",
    "Salticidae.C66_config_create"
   ],
   "note": "C66_config_precedence: C66. For every option table (registered without error), every set of text files and every command line: if parsing returns, the assignments made are those of the initial configuration file followed by the command line, with each named configuration file spliced in where it is named; a flag is on iff it was on by default or was mentioned, a value option holds the last value assigned to it or its default, a list option its default followed by all the values in order; and nothing else about the table changes. C66_config_create: C66, as programs use it: a Config created with the name of a configuration file has the option `conf` (`-c`) that names further files, and reads that file first."
  },
  {
   "property": "C67",
   "status": "partial",
   "theorems": [
    "Salticidae.C67_violated",
    "Salticidae.C67_registration_partial"
   ],
   "note": "The code violates the full statement; the negation is proved with a concrete execution, and the part that holds is proved for all inputs. Holds: C67_registration_partial: C67, the rest: registering a name that is in use is rejected (so a sequence that succeeds has distinct names); every option is found under its own name; it is found under its short name as well when no name means two options; and an unused name is never rejected. Fails: C67_violated: C67 fails: the second of two options with the same short name is registered without complaint but its short name means the first."
  },
  {
   "property": "C68",
   "status": "partial",
   "theorems": [
    "Salticidae.C68_violated_all",
    "Salticidae.C68_violated",
    "Salticidae.C68_stringprintf_partial"
   ],
   "note": "The code violates the full statement; the negation is proved with a concrete execution, and the part that holds is proved for all inputs. Holds: C68_stringprintf_partial: C68, the rest: texts shorter than 1024 characters are returned unchanged. Fails: C68_violated_all: C68 fails for every text of 1024 characters or more that does not end in NUL: the last character is replaced by a NUL. C68_violated: A text of 1024 characters loses its last one."
  },
  {
   "property": "C69",
   "status": "proved",
   "theorems": [
    "Salticidae.C69_double",
    "Salticidae.C69_rand_timeout"
   ],
   "note": "C69_double: C69 with the rounding of double: for all arguments that are doubles (and not negative). C69_rand_timeout: C69. For every non-negative base, every draw of `rand()`, and every floating-point rounding that is monotone and exact on 0, 1, alpha and base: the timeout lies between `base` and the rounded `base + alpha * base`; in exact arithmetic with the default alpha, between `base` and `1.5 base`."
  },
  {
   "property": "C70",
   "status": "partial",
   "theorems": [
    "Salticidae.C70_violated",
    "Salticidae.C70_c_api_partial"
   ],
   "note": "The code violates the full statement; the negation is proved with a concrete execution, and the part that holds is proved for all inputs. Holds: C70_c_api_partial: C70, proved part: when enough bytes are unread, the value is read and `*succ` is true; when not, the stream is unchanged and 0 is returned (but `*succ` is true as well). Missing: `*succ = false` on failure. Fails: C70_violated: C70 is violated: reading a byte from an empty stream reports success."
  },
  {
   "property": "C71",
   "status": "partial",
   "theorems": [
    "Salticidae.C71_one_way",
    "Salticidae.C71_violated",
    "Salticidae.C71_all_closed_partial"
   ],
   "note": "The code violates the full statement; the negation is proved with a concrete execution, and the part that holds is proved for all inputs. Holds: C71_one_way: The lifecycle is one-way: whatever calls are made in whatever order, the threads are started at most once and stopped at most once; in a stopped pool nothing happens any more, and neither start nor stop changes it. C71_all_closed_partial: After stop every connection has been closed exactly once and its dispatcher hook has run exactly once; its worker hook has run at least once, and exactly once unless its termination was in progress. Missing: the worker hook runs twice in that case. Fails: C71_violated: The code does not have it: a connection whose worker has torn it down, but which the dispatcher has not yet deleted when it is stopped, is torn down again."
  },
  {
   "property": "C72",
   "status": "proved",
   "theorems": [
    "Salticidae.C72_semantics",
    "Salticidae.C72_one_owner",
    "Salticidae.C72_closed_once",
    "Salticidae.C72_loop_alive",
    "Salticidae.C72_all_freed"
   ],
   "note": "C72_semantics: **C72** Any program on events, with any events of the loop: nothing that has been freed is used, and callbacks are called (with what descriptor), timers started (with what time) and handles closed as if events were values. C72_one_owner: **C72** A handle that is open belongs to one variable, and it is that which it calls; a variable's handles are open. C72_closed_once: **C72** Each handle is closed once, when no variable holds it any more, and not while one does; and it is freed at most once, after it has been closed. (A handle that libuv has failed to initialise is neither.) C72_loop_alive: **C72** A loop exists as long as there is an EventContext for it or a variable with an event of it, and is deleted once. C72_all_freed: **C72** When all events and all EventContexts have been destroyed, every loop has been deleted and every handle closed and freed, except those that libuv has failed to initialise."
  },
  {
   "property": "C73",
   "status": "partial",
   "theorems": [
    "Salticidae.C73_violated",
    "Salticidae.C73_violated_opcode",
    "Salticidae.C73_interop_partial"
   ],
   "note": "The code violates the full statement; the negation is proved with a concrete execution, and the part that holds is proved for all inputs. Holds: C73_interop_partial: C73, proved part: hosts of the same byte order (either one) agree on opcode, length, magic and checksum. Missing: hosts of different byte order. Fails: C73_violated: C73 is violated: the checksum is computed in host byte order, so a big-endian receiver rejects what a little-endian sender sends; and two-byte opcodes are read with their bytes swapped. C73_violated_opcode: With two-byte opcodes the opcode arrives with its bytes swapped."
  },
  {
   "property": "C74",
   "status": "proved",
   "theorems": [
    "Salticidae.C74_double",
    "Salticidae.C74_sec2tv"
   ],
   "note": "C74_double: C74 with the rounding of double: for every double that is not negative the timeval is normalised, and differs from the time by at most a microsecond and a rounding. C74_sec2tv: C74. For every non-negative time, `sec2tv` gives a normalised timeval: whole seconds, and microseconds from 0 to 999999, that together are at most the time and less than one microsecond below it."
  },
  {
   "property": "C75",
   "status": "partial",
   "theorems": [
    "Salticidae.C75_violated",
    "Salticidae.C75_returns_partial"
   ],
   "note": "The code violates the full statement; the negation is proved with a concrete execution, and the part that holds is proved for all inputs. Holds: C75_returns_partial: C75, the rest: parsing returns whenever the files that name one another are not nested without end, that is when some ranking of the files decreases along every such mention and is bounded by `n`. Fails: C75_violated: C75 fails: a configuration file that names itself is loaded over and over."
  },
  {
   "property": "C76",
   "status": "partial",
   "theorems": [
    "Salticidae.C76_descriptions",
    "Salticidae.C76_violated",
    "Salticidae.C76_reported_partial"
   ],
   "note": "The code violates the full statement; the negation is proved with a concrete execution, and the part that holds is proved for all inputs. Holds: C76_descriptions: `salticidae_strerror` never reads outside its table, whatever the code; every code of the library has its own description, and any other number is described as \"invalid\". C76_reported_partial: All but the `oscode` of errors made from a format string. The text of an error made from codes is the description of the code, followed by the operating system's text. Fails: C76_violated: Not so: an error made from a format string leaves `oscode` uninitialised."
  },
  {
   "property": "C77",
   "status": "partial",
   "theorems": [
    "Salticidae.C77_violated",
    "Salticidae.C77_violated_conn_peer",
    "Salticidae.C77_violated_del_peer",
    "Salticidae.C77_safe_partial"
   ],
   "note": "The code violates the full statement; the negation is proved with a concrete execution, and the part that holds is proved for all inputs. Holds: C77_safe_partial: Orderly and polite histories do not lead to undefined behaviour. Fails: C77_violated: The remote end of a dialled connection sends a heartbeat answer before the handshake: the node reads a flag that was never initialised. C77_violated_conn_peer: The user calls conn_peer while a connection is being replaced: the handshake that was put off is executed with a null connection. C77_violated_del_peer: A peer is deleted while two dials to it are open: the teardown of the first one uses the deleted peer."
  },
  {
   "property": "C78",
   "status": "partial",
   "theorems": [
    "Salticidae.C78_violated",
    "Salticidae.C78_violated_fd",
    "Salticidae.C78_partial"
   ],
   "note": "The code violates the full statement; the negation is proved with a concrete execution, and the part that holds is proved for all inputs. Holds: C78_partial: **C78** partial: it holds of programs without TimedFdEvents and without FdEvents that are made without a descriptor. (Missing: the others. C72_semantics says of all programs that the descriptors and the times that reach libuv and the callbacks are those given.) Fails: C78_violated: **C78** is violated. C78_violated_fd: The same with an FdEvent, as ConnPool::listen does with ev_listen (src/conn.cpp:387, include/salticidae/conn.h:207)."
  },
  {
   "property": "C79",
   "status": "partial",
   "theorems": [
    "Salticidae.C79_violated",
    "Salticidae.C79_partial"
   ],
   "note": "The code violates the full statement; the negation is proved with a concrete execution, and the part that holds is proved for all inputs. Holds: C79_partial: **C79** partial: a callback is destroyed only by an operation that clears, destroys, assigns to or sets the callback of the variable that has it: moving and swapping events, and anything done to others, leave it as it is. (Missing: it is, if the callback itself does that.) Fails: C79_violated: **C79** is violated: a timer's callback clears the timer, which destroys the std::function that is being called, with what it has captured. (So is it if it destroys the timer, assigns to it or sets its callback; or a queue's handler unregisters itself, event.h:629.)"
  },
  {
   "property": "C80",
   "status": "partial",
   "theorems": [
    "Salticidae.C80_violated",
    "Salticidae.C80_violated_teardown",
    "Salticidae.C80_violated_always",
    "Salticidae.C80_isolation_partial"
   ],
   "note": "The code violates the full statement; the negation is proved with a concrete execution, and the part that holds is proved for all inputs. Holds: C80_isolation_partial: C80, proved part: a history in which no event of another connection changes the thread's error queue leaves the connection exactly as its own events alone would. Missing: histories in which another connection fails or is torn down during its handshake. Fails: C80_violated: C80 is violated: a failed handshake of connection 0 leaves an error in the thread's error queue; connection 1, which is healthy, is terminated at its next read callback. C80_violated_teardown: C80 is violated also by a connection torn down while in its handshake (a timeout, a removed peer, a socket error), without any failure of TLS. C80_violated_always: C80 is violated for every connection: whatever state a live connection with nothing to read is in, it is terminated by its next read callback if another connection's handshake has failed before."
  },
  {
   "property": "C81",
   "status": "partial",
   "theorems": [
    "Salticidae.C81_violated",
    "Salticidae.C81_violated_always",
    "Salticidae.C81_flowing_partial"
   ],
   "note": "The code violates the full statement; the negation is proved with a concrete execution, and the part that holds is proved for all inputs. Holds: C81_flowing_partial: C81, proved part: as long as the kernel's buffer never is full (`Flowing`). Missing: a full buffer. Fails: C81_violated: C81 is violated: one write that finds the kernel's buffer full, and the next write callback terminates the connection, since the data is no longer where OpenSSL was told it is. C81_violated_always: C81 is violated whenever it matters: in every reachable state of every live connection with a write that found the kernel's buffer full, the next write callback terminates the connection, whatever the allocator, the kernel and the other connections do."
  },
  {
   "property": "C82",
   "status": "proved",
   "theorems": [
    "Salticidae.C82_received",
    "Salticidae.C82_sent",
    "Salticidae.C82_pending"
   ],
   "note": "C82_received: C82, receiving: in every history, of every connection, without an oversized header, the messages that arrived are those delivered, at most one waiting for room in the queue, and those of the bytes still held; and a corrupted message is never delivered. C82_sent: C82, sending: the plaintext put into records is always a prefix of what was written to the connection, in order and without gap or repetition; what the code counts as sent is in records; and what is not counted as sent is still queued. C82_pending: C82, nothing is forgotten: if no empty data is written, a live connection past its handshake with unsent data either watches the socket for writability or has a notification under way; before that, a notification is under way."
  },
  {
   "property": "C83",
   "status": "proved",
   "theorems": [
    "Salticidae.C83_no_stranded_record"
   ],
   "note": "C83_no_stranded_record: C83: a live connection that waits for its socket to become readable holds no decrypted bytes in the TLS layer (for those no event would come); so if the socket holds no record either, everything that arrived has been handed to the parser, and, unless a message is waiting for room in the queue, every message that arrived intact has been delivered."
  },
  {
   "property": "C84",
   "status": "proved",
   "theorems": [
    "Salticidae.C84_handshake",
    "Salticidae.C84_watched"
   ],
   "note": "C84_handshake: C84: nothing received is delivered before the handshake has completed with a certificate of the peer and the connection callback has accepted it; nothing written is put into a record before the handshake has completed; the connection callback runs at most once, and only after the handshake; a refusal leads to the termination of the connection; and while the handshake goes on, the socket is being watched. C84_watched: C84: while the handshake goes on, the socket is watched for exactly what OpenSSL asked for last; a handshake that OpenSSL reports as failed leads to the termination of the connection; and a handshake that OpenSSL reports as done is over."
  },
  {
   "property": "C85",
   "status": "partial",
   "theorems": [
    "Salticidae.C85_violated",
    "Salticidae.C85_send_partial",
    "Salticidae.C85_read_first"
   ],
   "note": "The code violates the full statement; the negation is proved with a concrete execution, and the part that holds is proved for all inputs. Holds: C85_send_partial: C85, proved part: a callback that finds nothing to read (no data, or reading suspended because the receive buffer is full) sends at least one byte. Missing: callbacks that find data. C85_read_first: The other direction is not starved: a callback that finds data to read reads, whatever there is to send. Fails: C85_violated: C85 is violated: while a message arrives before every callback, each callback only reads, and nothing is ever sent."
  },
  {
   "property": "C86",
   "status": "partial",
   "theorems": [
    "Salticidae.C86_violated",
    "Salticidae.C86_violated_timer",
    "Salticidae.C86_heartbeat_partial",
    "Salticidae.C86_answered",
    "Salticidae.C86_alive"
   ],
   "note": "The code violates the full statement; the negation is proved with a concrete execution, and the part that holds is proved for all inputs. Holds: C86_heartbeat_partial: In orderly and polite histories the heartbeat is as promised. Missing: other histories, see `C86_violated`. C86_answered: In every history, every heartbeat ping that is received over a connection that is not terminated is answered, once, over that connection, and there are no other heartbeat answers. C86_alive: In every history, the heartbeat of a connected peer does not stop: its ping timer runs, or it has expired and the first heartbeat answer, over a connection to that peer, sends the next ping over the peer's connection and starts the timer again. Fails: C86_violated: Then a ping is sent over the old connection, which has been torn down. C86_violated_timer: And the ping timer of the peer, which is not connected, is started."
  },
  {
   "property": "C87",
   "status": "partial",
   "theorems": [
    "Salticidae.C87_violated_c",
    "Salticidae.C87_violated_c_client",
    "Salticidae.C87_violated_deferred",
    "Salticidae.C87_violated_multicast",
    "Salticidae.C87_send",
    "Salticidae.C87_c_partial",
    "Salticidae.C87_deferred_partial",
    "Salticidae.C87_order",
    "Salticidae.C87_multicast_partial",
    "Salticidae.C87_ids"
   ],
   "note": "The code violates the full statement; the negation is proved with a concrete execution, and the part that holds is proved for all inputs. Holds: C87_send: `send_msg` of MsgNetwork, PeerNetwork and ClientNetwork is truthful in every state: it returns `true` exactly when the message is at the end of the send buffer of the connection it is for, `false` when that buffer refused it, and throws when there is no such peer or client. C87_c_partial: The C functions are truthful as long as the buffer does not refuse, and msgnetwork_send_msg always is. Missing: refusals, see `C87_violated_c`. C87_deferred_partial: In every history in which the send buffer of a client does not refuse a deferred message, the errors reported are, in order and with the ids of their calls, exactly those of the deferred calls that did not reach all their targets. Missing: refusals by the buffer of a client, see `C87_violated_deferred`. C87_order: In every history, the deferred calls run once each, in the order in which they were made. C87_multicast_partial: A multicast to peers that all exist reaches every one of them whose buffer has room, whatever the buffers of the others answer. Missing: lists that name a peer that does not exist, see `C87_violated_multicast`. C87_ids: The ids of deferred calls are 0, 1, 2, ... and start again after 65535: of any 65536 calls in a row no two have the same, so an error report says which call it is about. Fails: C87_violated_c: peernetwork_send_msg (C) drops the answer of the C++ function: it says `true` although the buffer is full. C87_violated_c_client: So does clientnetwork_send_msg. C87_violated_deferred: ClientNetwork::send_msg_deferred drops it too: the buffer is full and nothing is reported. C87_violated_multicast: A multicast stops at the first peer that does not exist: the peers named after it get nothing."
  },
  {
   "property": "C88",
   "status": "proved",
   "theorems": [
    "Salticidae.C88_addr",
    "Salticidae.C88_distinct",
    "Salticidae.C88_cert",
    "Salticidae.C88_choice"
   ],
   "note": "C88_addr: The identity made from an address is the hash of the four address bytes and the port number, most significant byte first; so it is the same on hosts of either byte order, however the address object was made. C88_distinct: Different addresses have different identities, unless the hash of the two byte strings that stand for them is the same. C88_cert: The identity made from a certificate is the hash of its DER form: two certificates have the same identity only if they are the same or the hash of their DER forms is; and an address and a certificate have the same identity only if the hash is. C88_choice: The identity of the node at the other end: with TLS and identities by certificate, of its certificate, whatever address it claims; otherwise of the address, whatever certificate it has."
  },
  {
   "property": "C89",
   "status": "partial",
   "theorems": [
    "Salticidae.C89_violated",
    "Salticidae.C89_violated_content",
    "Salticidae.C89_sha256",
    "Salticidae.C89_sha1_partial",
    "Salticidae.C89_stream"
   ],
   "note": "The code violates the full statement; the negation is proved with a concrete execution, and the part that holds is proved for all inputs. Holds: C89_sha256: SHA256 keeps the promise. C89_sha1_partial: SHA1: the first 20 bytes of each result are the digest. Missing: the length, see `C89_violated`. C89_stream: get_hash of a stream is the hash of the bytes that have not been read yet. Fails: C89_violated: SHA1 gives 32 bytes; the digest has 20. C89_violated_content: And the other 12 are whatever was in the caller's array before: the same input, different results."
  },
  {
   "property": "C90",
   "status": "partial",
   "theorems": [
    "Salticidae.C90_violated",
    "Salticidae.C90_call_partial",
    "Salticidae.C90_ends"
   ],
   "note": "The code violates the full statement; the negation is proved with a concrete execution, and the part that holds is proved for all inputs. Holds: C90_call_partial: The full statement for callbacks that leave `return_sync()` to the library. C90_ends: The call ends: however the threads are scheduled, the number of their steps is bounded, but for the two steps that each spurious wake-up may add. Fails: C90_violated: Not if the callback calls `return_sync()`, which is public: the caller goes on, its notifier is gone when the handler notifies it again."
  },
  {
   "property": "C91",
   "status": "partial",
   "theorems": [
    "Salticidae.C91_violated",
    "Salticidae.C91_violated_setup",
    "Salticidae.C91_open_partial",
    "Salticidae.C91_distinct",
    "Salticidae.C91_stop_partial"
   ],
   "note": "The code violates the full statement; the negation is proved with a concrete execution, and the part that holds is proved for all inputs. Holds: C91_open_partial: What does hold of every history: no stray close, nothing of the application is touched, and the library has open exactly the listening socket, the sockets of the connections that are not terminated, and the sockets that could not be set up. C91_distinct: Two connections that are not terminated never have the same descriptor, nor that of the listening socket. C91_stop_partial: After `stop` only the listening socket and the sockets that could not be set up are open; once the network is destroyed, only the latter, and so none if setting up never failed. Fails: C91_violated: Not if the network listens: `stop()` of a MsgNetwork, PeerNetwork or ClientNetwork hides that of ConnPool and leaves the listening socket open, so that clients still connect to it, until the network is destroyed. C91_violated_setup: Nor if setsockopt or fcntl fails: `accept_client` and `_connect` throw without closing the socket, which is then open for ever."
  },
  {
   "property": "C92",
   "status": "partial",
   "theorems": [
    "Salticidae.C92_violated_silent",
    "Salticidae.C92_violated_id",
    "Salticidae.C92_connect_partial",
    "Salticidae.C92_end_partial",
    "Salticidae.C92_listen"
   ],
   "note": "The code violates the full statement; the negation is proved with a concrete execution, and the part that holds is proved for all inputs. Holds: C92_connect_partial: What does hold of every history: a connect() that fails before it has a socket that is set up is reported exactly once with its number and makes no connection; any other makes exactly one connection, and nothing is reported with its number; and the errors reported with number -1 are exactly as many as there were failures of accepting or of establishing a connection. C92_end_partial: And once nothing is going on any more, a connection either was set up or is gone; as long as the network runs the handler is told exactly once of every connection that is gone, and of no other. C92_listen: The network accepts on the port of the last listen() that was successful, on a socket of its own, and on no other; a later listen() that fails and a failure of accept() both end that. Fails: C92_violated_silent: Not if the system refuses at once (connect() fails with an error that is not EINPROGRESS): the connection is removed and no error is reported. C92_violated_id: Not if the other side refuses: the error is reported with the number -1, so that it cannot be told which call failed; and as the socket goes on being polled until the connection is removed, it may be reported more than once."
  },
  {
   "property": "C93",
   "status": "partial",
   "theorems": [
    "Salticidae.C93_violated",
    "Salticidae.C93_genuine_partial",
    "Salticidae.C93_reported_partial",
    "Salticidae.C93_single_partial",
    "Salticidae.C93_after"
   ],
   "note": "The code violates the full statement; the negation is proved with a concrete execution, and the part that holds is proved for all inputs. Holds: C93_genuine_partial: No fatal error is reported that did not occur, or more often than it occurred, at any time. C93_reported_partial: If a fatal error occurred, then once nothing is left to do one has been reported, and all workers but the dispatcher have ended. Missing: that each is reported. C93_single_partial: With one error there is none to lose: it is reported exactly once. C93_after: Once a fatal error has reached the dispatcher no closure queued for it runs any more, and every call that comes to its turn is told that the network is not available. Fails: C93_violated: Not if two closures fail on a worker: the first error stops the dispatcher's ThreadCall, through which the second would have had to go."
  },
  {
   "property": "C94",
   "status": "partial",
   "theorems": [
    "Salticidae.C94_violated",
    "Salticidae.C94_violated_stopped",
    "Salticidae.C94_calls_partial",
    "Salticidae.C94_once_partial",
    "Salticidae.C94_stop",
    "Salticidae.C94_stop_returns",
    "Salticidae.C94_end"
   ],
   "note": "The code violates the full statement; the negation is proved with a concrete execution, and the part that holds is proved for all inputs. Holds: C94_calls_partial: While the network is started and `stop` has not been called, fatal errors or not: each call returns exactly once, in the order of the calls. Missing: before `start`, and during and after `stop`. C94_once_partial: In every state of the network and at any time: no call returns twice, or without having been made. C94_stop: `stop` returns. While it waits, one of the threads it waits for (or it itself) can do a step that brings it closer to its end, and no step of any thread, whatever it queues or however it fails, takes it further away. C94_stop_returns: So there is always a way to its end that needs nothing of the application. C94_end: When `stop` has returned, all the threads of the network have ended. Fails: C94_violated: Not while the network has not been started. C94_violated_stopped: Nor once `stop` has returned: no call returns any more, whatever happens."
  },
  {
   "property": "C95",
   "status": "partial",
   "theorems": [
    "Salticidae.C95_violated_lost",
    "Salticidae.C95_violated_one_producer",
    "Salticidae.C95_violated",
    "Salticidae.C95_violated_any_lost",
    "Salticidae.C95_violated_any",
    "Salticidae.C95_one_block_partial"
   ],
   "note": "The code violates the full statement; the negation is proved with a concrete execution, and the part that holds is proved for all inputs. Holds: C95_one_block_partial: C95 as long as no block is full before: at most `size` (4096 in the code) calls of enqueue, by any number of threads, in any interleaving and with any values that the memory model lets the loads read. Missing: more calls than that, see `C95_violated_any` (`2 * size + 1` calls). Fails: C95_violated_lost: The element 13 is lost: the call has returned true, nothing is going on, and the consumer has seen 11 and 12 only. The consumer takes the head index of the reused block for 1, and so the block for empty. C95_violated_one_producer: With one producer and one consumer, too, an element is lost. C95_violated: The full statement fails: an element is lost in an execution that the memory orders of the code allow. C95_violated_any_lost: With blocks of any size, 4096 as in the code: one producer calls enqueue `2 * size + 1` times, all calls return, and when nothing is going on any more one element has not arrived. C95_violated_any: So that C95 fails for every size of blocks."
  },
  {
   "property": "C96",
   "status": "partial",
   "theorems": [
    "Salticidae.C96_violated_terminate",
    "Salticidae.C96_violated_cert",
    "Salticidae.C96_violated",
    "Salticidae.C96_race_free_partial",
    "Salticidae.C96_server_partial"
   ],
   "note": "The code violates the full statement; the negation is proved with a concrete execution, and the part that holds is proved for all inputs. Holds: C96_race_free_partial: In such a run there is no data race. (Missing: the two situations excluded by `Proper`, where there is one.) C96_server_partial: A program that only accepts connections has none at all. (Missing: programs that connect.) Fails: C96_violated_terminate: The log of that run: the last two events, of worker 1 and of the dispatcher, both write the socket's event and the buffers of connection 1. C96_violated_cert: The program's look at the peer's certificate and the worker's store of it are not ordered. C96_violated: The full statement fails."
  },
  {
   "property": "C97",
   "status": "partial",
   "theorems": [
    "Salticidae.C97_violated_peers",
    "Salticidae.C97_violated_torn",
    "Salticidae.C97_violated_clients",
    "Salticidae.C97_violated",
    "Salticidae.C97_proper_partial",
    "Salticidae.C97_members_partial",
    "Salticidae.C97_deferred_partial"
   ],
   "note": "The code violates the full statement; the negation is proved with a concrete execution, and the part that holds is proved for all inputs. Holds: C97_proper_partial: In such runs the calls are safe. (Missing: the overlaps excluded by `Proper`.) C97_members_partial: The lock does what it is for: however sends interleave with adding and deleting peers, with other threads sending, and with connections made and dropped, they are safe as long as no handshake is finished. (Missing: handshakes.) C97_deferred_partial: Calls that do not overlap with anything the dispatcher does to the table (as those of send_msg_deferred, which the dispatcher itself makes) are safe: each thread that looks up is alone with the table. (Missing: overlaps.) Fails: C97_violated_peers: A thread that sends to a peer increments a reference count in a control block that the dispatcher has deleted. C97_violated_torn: A thread that sends to a peer reads half of the old handle and half of the new one, and writes to a deleted connection. C97_violated_clients: A thread that sends to a client uses the entry of the client after the dispatcher has deleted it. C97_violated: The full statement fails."
  },
  {
   "property": "C98",
   "status": "proved",
   "theorems": [
    "Salticidae.C98_typed_delivery",
    "Salticidae.C98_fields"
   ],
   "note": "C98_typed_delivery: C98. Any number of nodes, connections and handlers; any interleaving of sends, socket callbacks, TCP, queue and loop. What the handlers of a node have been given from an end of a connection is, in order, a beginning of what send_msg has accepted at the other end: each message once, to the handler registered for its opcode, with the value that was sent. When the connection is drained, it is all of it. C98_fields: C98, message types. A type that writes its fields one after the other and reads fields of the same types back is read as it was written."
  },
  {
   "property": "C99",
   "status": "partial",
   "theorems": [
    "Salticidae.C99_c_objects_partial",
    "Salticidae.C99_next_call_partial",
    "Salticidae.C99_violated_calls",
    "Salticidae.C99_violated"
   ],
   "note": "The code violates the full statement; the negation is proved with a concrete execution, and the part that holds is proved for all inputs. Holds: C99_c_objects_partial: C99 holds for all programs that stay away from the calls listed in `Spec.CApi.trouble`. Missing: those calls, see `C99_violated`. C99_next_call_partial: C99, for every single call: after any program that has gone well, one more permitted call goes well. Fails: C99_violated_calls: The calls named in `Spec.CApi.trouble` are wrong, each of them: reading an integer from a stream that is too short (`*succ` stays true); a block from a stream that is too short (null, but the stream claims to hold 2^64 - 1 bytes afterwards); an array from hexadecimal text with other characters in it (no error); an array moved from a stream that has been read from (the bytes already read come back); the null hash value equals the zero hash value; a payload consumed twice (ends the program). C99_violated: C99 is false as it stands."
  },
  {
   "property": "C100",
   "status": "partial",
   "theorems": [
    "Salticidae.C100_keys_partial",
    "Salticidae.C100_violated_left_behind",
    "Salticidae.C100_violated_undefined",
    "Salticidae.C100_violated",
    "Salticidae.C100_next_operation_partial"
   ],
   "note": "The code violates the full statement; the negation is proved with a concrete execution, and the part that holds is proved for all inputs. Holds: C100_keys_partial: **C100**, what holds: for every sequence of operations none of which is in the list `Spec.Keys.trouble`: failing key generation, a PEM file that can be opened but not parsed, a password with the C functions and a file that cannot be opened, a password of 1024 bytes or more for an encrypted file, an empty DER string, a file that cannot be written to, a failure in a C function without error parameter, SSL_set_fd failing. C100_next_operation_partial: At every moment, whatever happened before: the next operation, if it is permitted and not one of the troubles, is defined and reports what it should. Fails: C100_violated_left_behind: Programs the statement fails for: a PEM file that is not one leaves the file open (a key, a certificate, an encrypted file read without password); a failing generation leaves the key; a failing SSL_set_fd leaves the session; the C function leaves the password in memory when the file cannot be opened. C100_violated_undefined: Programs that are undefined or end with an exception from a C function: saving to a file that cannot be opened, a long password, an empty DER string, a certificate whose key cannot be decoded. C100_violated: The full statement fails."
  },
  {
   "property": "C101",
   "status": "partial",
   "theorems": [
    "Salticidae.C101_has_meaning",
    "Salticidae.C101_configured_partial",
    "Salticidae.C101_c_programs",
    "Salticidae.C101_plain_programs",
    "Salticidae.C101_violated_programs",
    "Salticidae.C101_violated"
   ],
   "note": "The code violates the full statement; the negation is proved with a concrete execution, and the part that holds is proved for all inputs. Holds: C101_has_meaning: Programs that compile have a meaning: the specification leaves none of them out. C101_configured_partial: **C101**, what holds: the statement for every program in which no setting is hidden by the static type when a configuration is converted to a derived class (`Spec.Setup.unseen`), `msg_magic` is not called and `tls_skip_ca_check` is not given a pointer to `false`. C101_c_programs: **C101** for C programs: all of them. (`cTyped`: a program only uses configurations it has made, with settings they have.) C101_plain_programs: The static type is that of the object: settings cannot get lost when a variable is passed on. Fails: C101_violated_programs: `MsgNetwork(ec, MsgNetwork::Config().max_msg_size(65536).nworker(4))`: the network accepts messages of 1024 bytes only. The expression in test/test_p2p_stress.cpp:246-251, `Config(cfg.nworker(2)).conn_timeout(5).ping_period(2).max_msg_size(65536)`: the network pings every 30 seconds and waits 180. `msg_magic` is undefined. `bool skip = false; Config().tls_skip_ca_check(&skip)`: certificates are not checked. C101_violated: The full statement fails."
  },
  {
   "property": "C102",
   "status": "partial",
   "theorems": [
    "Salticidae.C102_counts",
    "Salticidae.C102_clear",
    "Salticidae.C102_since_clear",
    "Salticidae.C102_right_partial",
    "Salticidae.C102_both_ends_partial",
    "Salticidae.C102_violated_refused",
    "Salticidae.C102_violated_clear",
    "Salticidae.C102_violated"
   ],
   "note": "The code violates the full statement; the negation is proved with a concrete execution, and the part that holds is proved for all inputs. Holds: C102_counts: C102, what is counted. Between two moments at which no send_msg is going on at an end, and without clear_msgstat in between, the counters of the end grow by the number and the payload bytes of the messages that send_msg was called with (whatever it returned), and of the messages that handlers were called with; modulo 2^64. C102_clear: clear_msgstat, when nothing comes in between: it sets the counters of the end to zero and changes nothing else. C102_since_clear: C102, after clear_msgstat. If it runs at a moment at which no send_msg is going on at the end, then, whenever that is so again and it was not called again, the counters tell the number and the payload bytes of the messages that send_msg was called with, and of those given to handlers, since then. C102_right_partial: C102, the part that holds: from a moment at which the counters of the end are zero and no send_msg is going on there, as long as no call of send_msg there is refused and clear_msgstat is not called again. Missing: refused messages are counted as sent, and clear_msgstat may come between the two counters of a message. C102_both_ends_partial: C102, both ends of a connection. Without clear_msgstat: an end has never counted more messages received than the other has counted sent (for fewer than 2^64 steps); and when everything sent to it has come through, no send_msg is going on at the other end and none was refused there, the counters agree. Fails: C102_violated_refused: A refused message is counted as sent: with three messages accepted, the counter is 4. C102_violated_clear: clear_msgstat between the two counters of a message: no message, but two bytes. C102_violated: C102 does not hold."
  },
  {
   "property": "C103",
   "status": "partial",
   "theorems": [
    "Salticidae.C103_values_partial",
    "Salticidae.C103_violated_programs",
    "Salticidae.C103_violated",
    "Salticidae.C103_violated_moved",
    "Salticidae.C103_serializable",
    "Salticidae.C103_fields",
    "Salticidae.C103_bytes_of_hex"
   ],
   "note": "The code violates the full statement; the negation is proved with a concrete execution, and the part that holds is proved for all inputs. Holds: C103_values_partial: C103 holds for the programs all of whose statements are `Spec.StreamVar.careful`. Missing: the statements that are not, see `C103_violated`. C103_serializable: C103, objects: if `serialize` of a class appends the bytes `enc` and `unserialize` obtains the object `a` from any stream that starts with these bytes, then the object is recovered from its bytes (even with bytes after them) and from its hexadecimal text in either letter case; its text and its hash are those of `enc`. C103_fields: C103, objects whose fields are integers and blocks: for all lists of field values. C103_bytes_of_hex: The free function `from_hex` inverts the printing of bytes. Fails: C103_violated_programs: C103 is violated: converting a partly read stream as an rvalue shows bytes that have been read already; a failed block read makes the next `size()` huge and the next conversion undefined; a stream appended to itself reads freed memory; text that is not hexadecimal is loaded. C103_violated: C103 is false as it stands. C103_violated_moved: A stream that has been moved from is not in a valid state when bytes had been read from it: `size()` is huge and a conversion is undefined; `clear()` or an assignment makes it usable again (this is allowed by `Spec.StreamVar.careful`)."
  },
  {
   "property": "C104",
   "status": "partial",
   "theorems": [
    "Salticidae.C104_lines_partial",
    "Salticidae.C104_one_line",
    "Salticidae.C104_violated_programs",
    "Salticidae.C104_violated_long",
    "Salticidae.C104_violated"
   ],
   "note": "The code violates the full statement; the negation is proved with a concrete execution, and the part that holds is proved for all inputs. Holds: C104_lines_partial: C104 holds for the programs all of whose steps are `Spec.Logger.careful`. Missing: the others, see `C104_violated_programs`. C104_one_line: The lines are well formed: a line of a text without line feeds ends in its only line feed (if there is none in date and prefix), so lines can be told apart. Fails: C104_violated_programs: C104 is violated: a log file that is opened again is overwritten from its beginning; two loggers on one file overwrite each other's lines; destroying a copy of a logger closes the file of the original, and the descriptor may be that of another file when the original is used; the rest of a line that the system does not take is lost; a call in another thread changes the time of a line. C104_violated_long: C104 is violated: of a text of 1024 characters or more the last one is replaced by NUL. C104_violated: C104 is false as it stands."
  },
  {
   "property": "C105",
   "status": "partial",
   "theorems": [
    "Salticidae.C105_violated",
    "Salticidae.C105_violated_single",
    "Salticidae.C105_returns_partial",
    "Salticidae.C105_called_partial",
    "Salticidae.C105_bounded_partial",
    "Salticidae.C105_waits",
    "Salticidae.C105_violated_any",
    "Salticidae.C105_violated_single_any"
   ],
   "note": "The code violates the full statement; the negation is proved with a concrete execution, and the part that holds is proved for all inputs. Holds: C105_returns_partial: It does, if no block is given back while the producer that linked it in an unbounded enqueue is still about to clear its mark, and (with many consumers) no consumer gets its reference to the block it read as the queue's head when the head has moved on. C105_called_partial: So does one that is called when no operation is in progress, … C105_bounded_partial: … and one of a queue with one consumer all of whose enqueues are bounded, or all by one producer. C105_waits: The queues are not lock-free: when a producer is stopped after it has linked a block and before it has made it the queue's tail (lines 143-147), no enqueue of any thread takes effect, whatever the others do. Fails: C105_violated: With several consumers: consumer 1 waits for ever for an element in a slot that no producer will fill, though nobody else is active. C105_violated_single: With one consumer: producer 3 goes round for ever, though nobody else is active. C105_violated_any: It is false whatever the size of the blocks (in the code it is 4096), of the queue with many consumers, … C105_violated_single_any: … and of the queue with one."
  },
  {
   "property": "C106",
   "status": "partial",
   "theorems": [
    "Salticidae.C106_violated",
    "Salticidae.C106_violated_two_identities",
    "Salticidae.C106_violated_unproved",
    "Salticidae.C106_members_partial",
    "Salticidae.C106_incoming_partial",
    "Salticidae.C106_connected_partial",
    "Salticidae.C106_names_partial"
   ],
   "note": "The code violates the full statement; the negation is proved with a concrete execution, and the part that holds is proved for all inputs. Holds: C106_members_partial: What a connection says about a peer is true, after every history: the peer is a member, with the address that was set. C106_incoming_partial: Connections that came from outside, and the placeholders of peers that have never been connected, can always be asked for their peers, and if one has a peer then it is that peer's connection. C106_connected_partial: When a handshake has been completed, its connection says that it is that of the peer whose identity was shown. C106_names_partial: In orderly histories the connection of a member says that it is that member's, with the address that was set, and connections that have not been torn down can be asked for their peers. Fails: C106_violated: A program that kept the handle of the connection that was torn down asks it for its peer: the dispatcher follows a pointer to the deleted peer. C106_violated_two_identities: The remote end of one connection claims to be 5 and then to be 6: the connection of peer 5 says that it is that of peer 6. C106_violated_unproved: The connection says that it is that of peer 5 although the other side has shown a certificate that is not the one of peer 5."
  },
  {
   "property": "C107",
   "status": "partial",
   "theorems": [
    "Salticidae.C107_violated",
    "Salticidae.C107_violated_tls",
    "Salticidae.C107_after_connected",
    "Salticidae.C107_tls_accepted",
    "Salticidae.C107_backlog_partial",
    "Salticidae.C107_ordered_partial"
   ],
   "note": "The code violates the full statement; the negation is proved with a concrete execution, and the part that holds is proved for all inputs. Holds: C107_after_connected: For every schedule, a handler for a connection is called only after the callback was told that it is connected. C107_tls_accepted: For every schedule with TLS, handlers are called only for connections the callback accepted. C107_backlog_partial: For every schedule: once the callback was told that a connection is gone, only messages that were waiting for the user's thread by then can still reach a handler. Missing: that there are none. C107_ordered_partial: The property for every schedule in which no message of the connection waits when the user's thread tells the callback that it is gone. Missing: schedules in which one does, as in `C107_violated`. Fails: C107_violated: The code does not have it: a handler is called for a connection the user has been told is gone. C107_violated_tls: ... with TLS too."
  },
  {
   "property": "C108",
   "status": "partial",
   "theorems": [
    "Salticidae.C108_double",
    "Salticidae.C108_conversion",
    "Salticidae.C108_violated_early",
    "Salticidae.C108_violated",
    "Salticidae.C108_violated_truncated",
    "Salticidae.C108_violated_ready",
    "Salticidae.C108_violated_range",
    "Salticidae.C108_timeout_partial",
    "Salticidae.C108_prompt",
    "Salticidae.C108_enabled",
    "Salticidae.C108_in_force",
    "Salticidae.C108_defined_partial",
    "Salticidae.C108_cleared"
   ],
   "note": "The code violates the full statement; the negation is proved with a concrete execution, and the part that holds is proved for all inputs. Holds: C108_double: What the theorems of C108 assume of the rounding holds of double. C108_conversion: C108: a time in seconds becomes the number of milliseconds that is its (rounded) product with 1000 without the fraction, exactly when that is a uint64_t (other conversions are undefined). C108_timeout_partial: C108, proved part: a timer calls, and a TimedFdEvent reports TIMEOUT, only when it is waiting, and then the clock of the loop has moved on by the whole milliseconds of the time it was added for (less than a millisecond is cut off). So if the loop had just looked at the clock when the waiting began, the time that has really passed falls short by less than two milliseconds. Missing: the loop may not have looked at the clock for long when the object was added. C108_prompt: C108, proved part: no timer is overlooked. When the loop has run its timers, an object that was waiting before and still is has not waited for its time yet, on the clock of the loop. C108_enabled: C108, proved part: and it can always be run: an object that has waited for its time (rounded up to milliseconds), on the clock of the loop, can call back while the loop runs timers. C108_in_force: C108, proved part: an object reports nothing unless it has been added, and nothing after it has been stopped or has timed out until it is added again; of its descriptor, it reports only what it was added for, and nothing after an error. C108_defined_partial: C108, proved part: adding is undefined only for times outside the range of the conversion. C108_cleared: C108: an object that was cleared cannot be added again, whatever happened in between (the assertion of event.h:243 and 326 fails). Fails: C108_violated_early: C108 is violated: a timer added for a number of seconds calls its callback at once if the loop has been busy for that time before: the time counts from when the loop last looked at the clock. C108_violated: C108 is violated, for that reason. C108_violated_truncated: C108 is violated: the time is cut to milliseconds, so the callback comes early even if the loop has just looked at the clock: a timer of 1.5 ms calls after 1 ms. C108_violated_ready: C108 is violated: TIMEOUT is reported although the descriptor became ready within half of the time, if the loop was busy. C108_violated_range: C108 is violated: adding a timer for a second that is past is undefined."
  },
  {
   "property": "C109",
   "status": "partial",
   "theorems": [
    "Salticidae.C109_counted",
    "Salticidae.C109_never_early",
    "Salticidae.C109_kept_partial",
    "Salticidae.C109_accepting_partial",
    "Salticidae.C109_violated",
    "Salticidae.C109_violated_end"
   ],
   "note": "The code violates the full statement; the negation is proved with a concrete execution, and the part that holds is proved for all inputs. Holds: C109_counted: Every handle is accounted for: in every schedule the object of a connection exists exactly as long as there is a handle to it. C109_never_early: In every schedule: nothing is used after its destruction, and nothing is destroyed twice or too early. C109_kept_partial: The property holds of every schedule in which no connection attempt is completed while the dispatcher is about to terminate the connection. Missing: `C109_violated`. C109_accepting_partial: A network that only accepts connections keeps none of them too long. Fails: C109_violated: The property fails: when a connection attempt is completed while the dispatcher is about to terminate the connection, the worker is given the socket of a closed connection; the callbacks it then installs hold the connection for ever, although it is closed, the program has no handle and nothing waits. C109_violated_end: Nor does the end of the network destroy it."
  },
  {
   "property": "C110",
   "status": "partial",
   "theorems": [
    "Salticidae.C110_eventfd",
    "Salticidae.C110_violated",
    "Salticidae.C110_violated_bounds",
    "Salticidae.C110_violated_leak",
    "Salticidae.C110_violated_reset",
    "Salticidae.C110_pipe_partial",
    "Salticidae.C110_outstanding",
    "Salticidae.C110_never_blocks",
    "Salticidae.C110_no_lost_wakeup"
   ],
   "note": "The code violates the full statement; the negation is proved with a concrete execution, and the part that holds is proved for all inputs. Holds: C110_eventfd: **C110** (Linux) After any history of any number of threads: the descriptor is readable exactly if there has been a notification and no reset since; and each reset has said exactly whether there was one before it, so that of several consumers that reset one gets it. (That nothing blocks is in the types: each operation has a result.) C110_pipe_partial: **C110** (macOS) partial: after any history of the system calls of any number of threads, the two descriptors in the object, which each read overwrites, are those that it was made with, and no system call has got another one; each notification that has returned has been written and each byte is read once; when no reset is going on, the descriptor is readable exactly if something has been written since the last one ended; a notification waits only if there is no room for it; a reset ends (if nobody notifies meanwhile), and nothing can be read then; the destructor closes both descriptors. (Missing: C110_violated and the following; and the layout of the object is assumed.) C110_outstanding: **C110** With either variant, in a queue with k registered consumers of whose calls of `enqueue` at most M are going on at a time, at most M + 2k + 1 notifications are outstanding at any moment. C110_never_blocks: **C110** So the notification of an `enqueue`, or of a callback, never waits if the pipe has room for M + 2k + 1 notifications: with the usual 65536 bytes and one consumer, if fewer than 8190 threads enqueue at a time. C110_no_lost_wakeup: **C110** As C39 says of the eventfd, with the pipe no element is left unnoticed, with any number of producers and consumers: though `reset` is not atomic. Fails: C110_violated: **C110** is violated: a notification waits for ever if the pipe is full and the thread that would read it is the one that notifies. C110_violated_bounds: The memory is accessed outside of the array `fds`, which has no elements. C110_violated_leak: Both descriptors stay open if the constructor throws because of fcntl. C110_violated_reset: `reset` returns true also if there was nothing."
  },
  {
   "property": "C111",
   "status": "partial",
   "theorems": [
    "Salticidae.C111_violated",
    "Salticidae.C111_violated_stranger",
    "Salticidae.C111_dialling_partial",
    "Salticidae.C111_setup",
    "Salticidae.C111_dialled_partial"
   ],
   "note": "The code violates the full statement; the negation is proved with a concrete execution, and the part that holds is proved for all inputs. Holds: C111_dialling_partial: **C111** partial: whatever else happens, in every history in which no answer to a handshake that comes over a connection which the user has opened is that of a member, these connections are nobody's. (Missing: those of members, C111_violated.) C111_setup: **C111** When such a connection is set up, what it sends is the node's address with the number 0, and nothing else changes. C111_dialled_partial: **C111** partial: the node that is dialled, in whatever state, ignores the message if the address that it claims is a member's; otherwise it calls the handler for unknown peers and closes this connection. Its peers, their connections and the peer callback are left as they are in either case. (Missing: that it stays open, C111_violated_stranger.) Fails: C111_violated: **C111** is violated: a connection opened to the address of a member is taken for the member's (and C57_violated: it stays so when it is gone). C111_violated_stranger: **C111** is violated on the other side too: a node that does not know the address that the message claims closes the connection, and calls the handler for unknown peers."
  },
  {
   "property": "C112",
   "status": "partial",
   "theorems": [
    "Salticidae.C112_violated",
    "Salticidae.C112_violated_silent",
    "Salticidae.C112_idle_partial",
    "Salticidae.C112_unreported_partial",
    "Salticidae.C112_not_before_partial"
   ],
   "note": "The code violates the full statement; the negation is proved with a concrete execution, and the part that holds is proved for all inputs. Holds: C112_idle_partial: What holds of 2: a connection that has been set up, in `s`, and over which no heartbeat is sent from then on is closed within `timeout` and two turns. Missing: connections that are not set up. C112_unreported_partial: In particular one over which no handshake with a peer has been completed. C112_not_before_partial: What holds of 1: a connection is closed by its timeout only when the worker has started the timer for it — which it does on behalf of the dispatcher, after the set-up and with each heartbeat — and never sooner than `timeout` after it did so last. Missing: what arrives over the connection does not start the timer anew. Fails: C112_violated: A connection that the user opened is closed a second after it was set up, although a millisecond ago data arrived over it. C112_violated_silent: A connection that was accepted and is never set up — its TLS handshake is not completed — is not closed."
  },
  {
   "property": "C113",
   "status": "partial",
   "theorems": [
    "Salticidae.C113_violated",
    "Salticidae.C113_held_partial",
    "Salticidae.C113_empty_partial"
   ],
   "note": "The code violates the full statement; the negation is proved with a concrete execution, and the part that holds is proved for all inputs. Holds: C113_held_partial: What holds: the connections that are gone and still held are three for each peer at most — the one that get_peer_conn() gives, one of a failed handshake from the peer and one to it — and one for each handshake that was put off; no matter how many connections there have been. Missing: that the two of failed handshakes are let go of. C113_empty_partial: In particular a network without peers holds no connection that is gone, once the handshakes that were put off have been dealt with. Fails: C113_violated: It is still the peer's `inbound_conn`."
  },
  {
   "property": "C114",
   "status": "partial",
   "theorems": [
    "Salticidae.C114_one_by_one_partial",
    "Salticidae.C114_single_partial",
    "Salticidae.C114_violated",
    "Salticidae.C114_violated_use",
    "Salticidae.C114_violated_leak"
   ],
   "note": "The code violates the full statement; the negation is proved with a concrete execution, and the part that holds is proved for all inputs. Holds: C114_one_by_one_partial: It is so if no call is made while another one is being executed. Missing: `C114_violated`. C114_single_partial: So it is in programs that make, use and destroy Configs and networks in one thread only, whatever the networks' own threads do. Fails: C114_violated: Two threads lose an update of the count: the certificate is destroyed while the second network has it. C114_violated_use: It is then used after its destruction. C114_violated_leak: In other schedules it is never destroyed: two networks are destroyed at the same time."
  },
  {
   "property": "C115",
   "status": "proved",
   "theorems": [
    "Salticidae.C115_kept"
   ],
   "note": "C115_kept: The connection of a peer that answers its heartbeats within `R` — and with which the handshake is completed within `R` of the set-up — is never closed by its timeout, if `timeout` is longer than `R` and than the longest ping interval, by the delays of the event loops."
  },
  {
   "property": "C116",
   "status": "proved",
   "theorems": [
    "Salticidae.C116_handles",
    "Salticidae.C116_until_freed",
    "Salticidae.C116_all_freed"
   ],
   "note": "C116_handles: The property. C116_until_freed: The same over any number of steps. C116_all_freed: The handles are all that the program keeps of a connection: when it has freed all those of connection `c` and the network, the connection is destroyed, once, in every run without the race of C109."
  },
  {
   "property": "C117",
   "status": "partial",
   "theorems": [
    "Salticidae.C117_told_partial",
    "Salticidae.C117_violated",
    "Salticidae.C117_violated_forever",
    "Salticidae.C117_once"
   ],
   "note": "The code violates the full statement; the negation is proved with a concrete execution, and the part that holds is proved for all inputs. Holds: C117_told_partial: It is so as long as no fatal error has occurred. Missing: `C117_violated`. C117_once: What holds in spite of fatal errors: until stop() no connection is torn down or closed twice, nor reported connected or disconnected twice, and at stop() each one is closed that is not, so that every connection has been closed exactly once. (Its worker hook may have run twice, see C71.) Fails: C117_violated: The code does not have it: after a fatal error the pool accepts a client, of which the program never hears. C117_violated_forever: So it is for every client accepted after a fatal error, whatever happens before stop(): the program is not told, nothing is read from it, and it is not closed. Nor is any other connection closed from then on, although the program, or an error, terminates it."
  },
  {
   "property": "C118",
   "status": "partial",
   "theorems": [
    "Salticidae.C118_socket_partial",
    "Salticidae.C118_none_partial",
    "Salticidae.C118_violated",
    "Salticidae.C118_violated_forever"
   ],
   "note": "The code violates the full statement; the negation is proved with a concrete execution, and the part that holds is proved for all inputs. Holds: C118_socket_partial: It is so when there is a socket: whether the other side answers, refuses or is silent makes no difference then. Missing: `C118_violated`. C118_none_partial: And if there is one for every attempt there is never a fatal error. Fails: C118_violated: The code does not have it: an attempt for which the system has no socket is a fatal error of the network. C118_violated_forever: From then on, whatever happens: no peer is added or deleted, none is connected, also not one that has nothing to do with the attempt, none is reported lost, and this peer is not dialled again."
  },
  {
   "property": "C119",
   "status": "proved",
   "theorems": [
    "Salticidae.C119_genuine",
    "Salticidae.C119_reported",
    "Salticidae.C119_fixed"
   ],
   "note": "C119_genuine: C119. After every history, whatever anybody has sent, dialled or answered: the connection that get_peer_conn(pid) gives, and over which send_msg(pid) sends, is one whose other side has shown the certificate of `pid`, and which was set up and reported, or has never been open. C119_reported: C119. A connection that the peer callback is told to be connected is one whose other side has shown the certificate of a member; that member's connection it is from then on. C119_fixed: C119. And it stays so: what certificate a connection has shown, once it is a peer's, does not change."
  },
  {
   "property": "C120",
   "status": "partial",
   "theorems": [
    "Salticidae.C120_violated",
    "Salticidae.C120_violated_again",
    "Salticidae.C120_named_partial"
   ],
   "note": "The code violates the full statement; the negation is proved with a concrete execution, and the part that holds is proved for all inputs. Holds: C120_named_partial: What holds, after every history: connections that came from outside, and those that have been reported as connected, say truly whose they are. Missing: connections that the node has dialled and whose handshake is not completed (`C120_violated`). Fails: C120_violated: The code does not have it: the connection of member 6 is in use and says that it is that of member 5. C120_violated_again: It can go on like this for ever: heartbeats of the impostor are answered, its handshake pings are ignored, and when the peer's timer closes the connection there is the next one."
  },
  {
   "property": "C121",
   "status": "partial",
   "theorems": [
    "Salticidae.C121_violated_stranger",
    "Salticidae.C121_violated",
    "Salticidae.C121_checked_partial"
   ],
   "note": "The code violates the full statement; the negation is proved with a concrete execution, and the part that holds is proved for all inputs. Holds: C121_checked_partial: What a program can do about it, when peers are identified by their certificates: a handler that takes a message only if the connection it came over is the one that get_peer_conn() gives for some member takes only messages that came over a connection whose other side has shown the certificate of that member. Fails: C121_violated_stranger: The code does not have it: the handlers are given any number of messages of somebody who is not a member and does not even say who they are; the connection is in use, nothing has been reported about it, and nobody has asked to close it. C121_violated: The code does not have it."
  },
  {
   "property": "C122",
   "status": "partial",
   "theorems": [
    "Salticidae.C122_violated",
    "Salticidae.C122_violated_delete",
    "Salticidae.C122_kept_partial"
   ],
   "note": "The code violates the full statement; the negation is proved with a concrete execution, and the part that holds is proved for all inputs. Holds: C122_kept_partial: What holds, after every history in which the answers to dials of peers came from those peers: the connection of a connected peer is closed only for a reason that has to do with that peer. Connections from strangers, from other members, from the same address, timers and deletions of others do not close it. Missing: histories in which somebody else answers at the address of a peer (`C122_violated`). Fails: C122_violated: The code does not have it: the retry timer of the other member closes the connection of member 6, because the other member still holds it as the connection that was dialled for it. C122_violated_delete: And so does the deletion of the other member."
  },
  {
   "property": "C123",
   "status": "partial",
   "theorems": [
    "Salticidae.C123_violated",
    "Salticidae.C123_limit",
    "Salticidae.C123_refused",
    "Salticidae.C123_opened_partial",
    "Salticidae.C123_small_partial",
    "Salticidae.C123_unlimited"
   ],
   "note": "The code violates the full statement; the negation is proved with a concrete execution, and the part that holds is proved for all inputs. Holds: C123_limit: However large max_send_buff_size is, and however the callers' steps interleave: at most 4096 messages wait for a peer that was never connected. C123_refused: What is refused, when nothing has been sent yet: only what does not fit in 4096 messages, or in what an opened connection has, which is more than max_send_buff_size. C123_opened_partial: The property for connections that were opened or accepted. Missing: the connection object a peer has before. C123_small_partial: The property for limits up to 4096, of every connection object. Missing: larger limits. C123_unlimited: Without a limit nothing is refused. Fails: C123_violated: 5000 messages may wait; 4096 do, and the next is refused."
  },
  {
   "property": "C124",
   "status": "partial",
   "theorems": [
    "Salticidae.C124_violated",
    "Salticidae.C124_violated_virtual",
    "Salticidae.C124_msg_peer_partial",
    "Salticidae.C124_base_partial",
    "Salticidae.C124_stopped_partial",
    "Salticidae.C124_joined",
    "Salticidae.C124_returns"
   ],
   "note": "The code violates the full statement; the negation is proved with a concrete execution, and the part that holds is proved for all inputs. Holds: C124_msg_peer_partial: MsgNetwork and PeerNetwork, running or not: every schedule, any number of workers. Missing: ClientNetwork. C124_base_partial: Of a ClientNetwork, the parts it has from MsgNetwork and ConnPool. Missing: its own. C124_stopped_partial: Every kind of network, when the program stops what it has started before it destroys it. Missing: ClientNetwork destroyed while it runs. C124_joined: When the destructor returns, no thread of the network is running: whatever the network was doing, for any number of workers. C124_returns: stop() and the destructor never hang: whatever the network and its threads are doing, the threads need only end the jobs they have begun for the call to return; and when it was the destructor, no thread is left. Fails: C124_violated: A ClientNetwork that is destroyed while it runs: its own members go first, and the threads are stopped after that. C124_violated_virtual: Also when the thread had begun what it does before the destructor was called: here with a virtual function of ClientNetwork."
  },
  {
   "property": "C125",
   "status": "partial",
   "theorems": [
    "Salticidae.C125_rounding",
    "Salticidae.C125_ties",
    "Salticidae.C125_wall",
    "Salticidae.C125_cpu_bound",
    "Salticidae.C125_partial",
    "Salticidae.C125_order",
    "Salticidae.C125_violated_any",
    "Salticidae.C125_violated"
   ],
   "note": "The code violates the full statement; the negation is proved with a concrete execution, and the part that holds is proved for all inputs. Holds: C125_rounding: The rounding in the model is that of the standard: the result has p binary digits, and no number with p digits is nearer. C125_ties: Half-way between two neighbours with p digits, m 2^k and (m + 1) 2^k, it is the one whose last digit is 0. C125_wall: The wall clock: right to 5 microseconds. C125_cpu_bound: The CPU clock, always: the error grows with the CPU time the process has used, not with what is measured. C125_partial: Processes that have used less than 2^31 microseconds (35 minutes) of CPU time. Missing: those that run longer. C125_order: Clocks that do not go back: no negative times. Fails: C125_violated_any: However long the time that is measured, for a process that has used enough CPU time it is reported as 0. C125_violated: A process that has used 2^35 microseconds (nine and a half hours) of CPU time: 2 milliseconds are reported as 0."
  },
  {
   "property": "C126",
   "status": "partial",
   "theorems": [
    "Salticidae.C126_save_partial",
    "Salticidae.C126_thrown",
    "Salticidae.C126_crash_partial",
    "Salticidae.C126_load_partial",
    "Salticidae.C126_violated",
    "Salticidae.C126_violated_full",
    "Salticidae.C126_violated_crash",
    "Salticidae.C126_violated_password"
   ],
   "note": "The code violates the full statement; the negation is proved with a concrete execution, and the part that holds is proved for all inputs. Holds: C126_save_partial: When there is room, what was saved is in the file, and is what is loaded, with any password or none; no other file changes. C126_thrown: Saving throws only when the disk is full. C126_crash_partial: A crash at any point (and a full disk): the file is as before, or a beginning of what is saved; other files are not touched. Missing: what was there before may be lost. C126_load_partial: Loading with a password that OpenSSL's interface can take, or none: exactly what the file holds; otherwise an exception. Missing: passwords with zero bytes, or of 1024 bytes and more. Fails: C126_violated: Files that cannot be opened: a null pointer is used. C126_violated_full: A full disk: save returns, and the file is a part of the key, that cannot be loaded (whatever the key, when there is room for fewer bytes than it has and it fits the FILE's buffer). C126_violated_crash: A crash: the key that was in the file is lost, and the new one is not there (whatever the keys). C126_violated_password: Passwords: those with a zero byte are cut there, so that the right one is refused and a wrong one accepted; those of 1024 bytes and more are undefined behaviour."
  },
  {
   "property": "C127",
   "status": "partial",
   "theorems": [
    "Salticidae.C127_violated",
    "Salticidae.C127_timely_partial",
    "Salticidae.C127_bounded_partial",
    "Salticidae.C127_single_producer_partial"
   ],
   "note": "The code violates the full statement; the negation is proved with a concrete execution, and the part that holds is proved for all inputs. Holds: C127_timely_partial: It does, if no block is given back while the producer that linked it in an unbounded enqueue is still about to clear its mark (and, with several consumers, a consumer's reference is to the block that is then the head); … C127_bounded_partial: … so it does when every enqueue is bounded, … C127_single_producer_partial: … and when there is one producer. Fails: C127_violated: A producer that clears the mark of a block late makes others link their blocks to one that is not in the queue: these blocks, with elements of enqueues that returned true, are never deleted."
  },
  {
   "property": "C128",
   "status": "partial",
   "theorems": [
    "Salticidae.C128_violated",
    "Salticidae.C128_timely_partial",
    "Salticidae.C128_bounded_partial",
    "Salticidae.C128_single_producer_partial"
   ],
   "note": "The code violates the full statement; the negation is proved with a concrete execution, and the part that holds is proved for all inputs. Holds: C128_timely_partial: It is, if no block is given back while the producer that linked it in an unbounded enqueue is still about to clear its mark (and, with several consumers, a consumer's reference is to the block that is then the head); … C128_bounded_partial: … so it is when every enqueue is bounded, … C128_single_producer_partial: … and when there is one producer. Fails: C128_violated: A producer that clears the mark of a block late: the element of an enqueue that returned true is overwritten, without being destroyed."
  },
  {
   "property": "C129",
   "status": "partial",
   "theorems": [
    "Salticidae.C129_expired",
    "Salticidae.C129_violated",
    "Salticidae.C129_refused",
    "Salticidae.C129_violated_names",
    "Salticidae.C129_violated_unsigned",
    "Salticidae.C129_violated_serial",
    "Salticidae.C129_key_partial",
    "Salticidae.C129_names_partial",
    "Salticidae.C129_names_only",
    "Salticidae.C129_identity"
   ],
   "note": "The code violates the full statement; the negation is proved with a concrete execution, and the part that holds is proved for all inputs. Holds: C129_expired: No certificate that is made is ever in force once it is there: it ends when it begins. C129_refused: A context that checks certificates refuses it, also if it has been told to trust it; one that does not check them takes it. C129_key_partial: What holds: the certificate is for the key that was given, its issuer is its subject, and it is signed with the key exactly when the private part is there; … C129_names_partial: … it has the names that were given, if the country is a code of two letters and the common name has 1 to 64 characters; … C129_names_only: … and only if the country has two characters and the common name 1 to 64. C129_identity: A certificate that is made again for the same key is another one, if a second has passed, and so are its bytes: a peer network, where a peer's id is the hash of these bytes (C88), takes a node that makes its certificate when it starts for another peer each time. Fails: C129_violated: So the statement is false, for the plainest certificate. C129_violated_names: Names are left out that are not as OpenSSL wants them: country \"USA\", no common name; nobody is told. C129_violated_unsigned: From a key without its private part, as X509::get_pubkey gives it, the certificate is not signed. C129_violated_serial: All have the number 1: any two certificates with the same names, whatever their keys, cannot be told apart by issuer and number."
  },
  {
   "property": "C130",
   "status": "partial",
   "theorems": [
    "Salticidae.C130_violated",
    "Salticidae.C130_violated_empty",
    "Salticidae.C130_violated_trailing",
    "Salticidae.C130_roundtrip",
    "Salticidae.C130_injective",
    "Salticidae.C130_prefix_partial"
   ],
   "note": "The code violates the full statement; the negation is proved with a concrete execution, and the part that holds is proved for all inputs. Holds: C130_roundtrip: What holds: from the bytes of an object one gets the object, … C130_injective: … so that two objects with the same bytes are the same; … C130_prefix_partial: … and a certificate that one gets from bytes has bytes with which they begin: it is the one object that they begin with, and nothing is undefined unless there are none. Fails: C130_violated: An empty byte array is undefined behaviour, … C130_violated_empty: … whatever OpenSSL does; … C130_violated_trailing: … and whatever follows the bytes of an object is ignored: so that many byte arrays are one certificate."
  },
  {
   "property": "C131",
   "status": "partial",
   "theorems": [
    "Salticidae.C131_violated",
    "Salticidae.C131_violated_null",
    "Salticidae.C131_line_partial",
    "Salticidae.C131_index",
    "Salticidae.C131_violated_again",
    "Salticidae.C131_abbreviation"
   ],
   "note": "The code violates the full statement; the negation is proved with a concrete execution, and the part that holds is proved for all inputs. Holds: C131_line_partial: C131 where names can be written on a command line (no empty name, no equals sign in a name, none of : ; ? + - as a short name), and where no name means two options. C131_index: parse returns the index from which on the arguments are left. C131_abbreviation: The beginning of a long name does for the name, when no other name begins with it. Fails: C131_violated: An option whose short name is a question mark: it is given, and parse says that it is invalid. C131_violated_null: A long name of one character, x, of an option with a value, and another option, a flag, with the short name x: \"-x\" makes parse hand a null pointer to the option named x. C131_violated_again: The place in the command line is a global variable of getopt, and parse does not reset it: after one call that leaves nothing, a second call, for this or another configuration, of as many arguments makes no assignment, whatever they are."
  },
  {
   "property": "C132",
   "status": "partial",
   "theorems": [
    "Salticidae.C132_lines",
    "Salticidae.C132_violated",
    "Salticidae.C132_columns_partial",
    "Salticidae.C132_short_column"
   ],
   "note": "The code violates the full statement; the negation is proved with a concrete execution, and the part that holds is proved for all inputs. Holds: C132_lines: C132, first half: the help has one line for each option, in the order in which they were added, and each can be read back: name, short name, description. C132_columns_partial: C132, second half, precisely: the descriptions of two options begin in the same column if and only if both have a short name, or neither, or the length of the longest name is 6 or 7 modulo 8. C132_short_column: The short names begin in the same column, after the longest name. Fails: C132_violated: An option with a short name and one without, the longest name of 4 characters: the descriptions begin in columns 16 and 24."
  },
  {
   "property": "C133",
   "status": "partial",
   "theorems": [
    "Salticidae.C133_violated",
    "Salticidae.C133_violated_range",
    "Salticidae.C133_accepts_partial",
    "Salticidae.C133_roundtrip",
    "Salticidae.C133_numerals",
    "Salticidae.C133_option"
   ],
   "note": "The code violates the full statement; the negation is proved with a concrete execution, and the part that holds is proved for all inputs. Holds: C133_accepts_partial: What is taken, precisely: texts that have a numeral at their beginning, after white space; out of range: the C++ library's exception; no numeral there: the error for invalid values. C133_roundtrip: So every value of an int that a program prints is read back, … C133_numerals: … every numeral in range is taken with its value (leading zeros included), … C133_option: … and an option of a configuration is set so: to the number, or the exception is passed on. Fails: C133_violated: \"80x\" is taken for 80: where the number ended is asked for, and not looked at. C133_violated_range: A number that is too large ends in an exception of the C++ library, which is no SalticidaeError."
  },
  {
   "property": "C134",
   "status": "partial",
   "theorems": [
    "Salticidae.C134_local",
    "Salticidae.C134_order",
    "Salticidae.C134_in_log",
    "Salticidae.C134_violated",
    "Salticidae.C134_moment_partial"
   ],
   "note": "The code violates the full statement; the negation is proved with a concrete execution, and the part that holds is proved for all inputs. Holds: C134_local: The time in a line of the log, read as a date and a time of day, is the local time, to the microsecond. C134_order: Texts sort as the local times they stand for, up to the year 9999: the text of the earlier one is the smaller one, character by character. C134_in_log: So it is in the lines that Logger writes (C104), if localtime's buffer is not overwritten by another thread. C134_moment_partial: C134 where the offset from UTC does not change: the text determines the moment, and later moments have later texts. Fails: C134_violated: The end of summer time: the hour after it has the texts of the hour before it, because the offset from UTC is not written."
  },
  {
   "property": "C135",
   "status": "partial",
   "theorems": [
    "Salticidae.C135_text",
    "Salticidae.C135_distinct",
    "Salticidae.C135_roundtrip_partial",
    "Salticidae.C135_refused",
    "Salticidae.C135_violated"
   ],
   "note": "The code violates the full statement; the negation is proved with a concrete execution, and the part that holds is proved for all inputs. Holds: C135_text: The text of the address `quad`, `port` is `<NetAddr a.b.c.d:port>`, on hosts of either byte order. C135_distinct: Two addresses with the same text are the same address, also when the texts come from hosts of different byte order. C135_roundtrip_partial: What holds: without `<NetAddr ` and `>` it does. Missing: the text as it is (`C135_violated`). C135_refused: No address is read back from its own text, unless there are hosts with `<` in their names. Fails: C135_violated: With a resolver that knows numbers only, the text of 0.0.0.0:0 is refused."
  },
  {
   "property": "C136",
   "status": "partial",
   "theorems": [
    "Salticidae.C136_port_partial",
    "Salticidae.C136_violated",
    "Salticidae.C136_rebuild",
    "Salticidae.C136_agree"
   ],
   "note": "The code violates the full statement; the negation is proved with a concrete execution, and the part that holds is proved for all inputs. Holds: C136_port_partial: What holds: the port that is returned lies in memory with its high byte first, whatever the host; so it is the port given on hosts that store numbers that way, and on the others exactly for ports whose two bytes are equal. Missing: the other ports (`C136_violated`). C136_rebuild: The address and the port that are returned make the same address again. C136_agree: The two ways to name a host and a port agree. Fails: C136_violated: On hosts that store the low byte first the port comes back with its bytes swapped."
  }
 ]
}