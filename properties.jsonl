{"id": "C01", "title": "Stream round trip", "statement": "Writing any sequence of fixed-width integers and byte blocks to a DataStream and reading them back with the same types and lengths yields the same values in the same order (after the bytes that were unread before), on a little-endian and on a big-endian host.", "quantifier": "every sequence of items (every width, every value, every block), every previous stream content, both host byte orders", "why_tests_cant": "the sequences and the values are unbounded; a test checks a handful of layouts on one host", "anchors": ["include/salticidae/stream.h:DataStream::operator<<", "include/salticidae/stream.h:DataStream::operator>>", "include/salticidae/stream.h:DataStream::put_data", "include/salticidae/stream.h:DataStream::get_data_inplace"]}
{"id": "C02", "title": "Short integer read is rejected without side effects", "statement": "Reading an integer from a DataStream that holds fewer unread bytes than the integer needs throws and leaves the stream exactly as it was; when the read succeeds it consumes exactly that many of the oldest unread bytes.", "quantifier": "every stream content, read position and integer width", "why_tests_cant": "boundary conditions over all sizes and offsets; a test only samples truncated inputs", "anchors": ["include/salticidae/stream.h:DataStream::operator>>"]}
{"id": "C03", "title": "In-place block read stays in bounds", "statement": "get_data_inplace(len) either returns exactly the next len unread bytes, or throws and leaves the stream usable (same unread bytes, size() still truthful).", "quantifier": "every stream content, read position and requested length (including lengths close to the top of size_t)", "why_tests_cant": "needs all lengths, including ones that overflow size_t, which no test allocates", "anchors": ["include/salticidae/stream.h:DataStream::get_data_inplace", "include/salticidae/stream.h:DataStream::size"]}
{"id": "C04", "title": "Converting a stream to bytes gives the unread bytes", "statement": "Converting a DataStream to a bytearray_t (as an lvalue or as an rvalue) gives exactly the bytes that have not been read yet.", "quantifier": "every stream content and read position, both value categories", "why_tests_cant": "needs every combination of previous reads and value category", "anchors": ["include/salticidae/stream.h:DataStream::operator bytearray_t"]}
{"id": "C05", "title": "Portable integers", "statement": "The bytes appended by `s << htole(x)` are the little-endian encoding of x whatever the byte order of the host, and letoh undoes htole, so integers written on one host are read back as the same value on any other host.", "quantifier": "every value of every supported width, every pair of host byte orders", "why_tests_cant": "tests run on one host", "anchors": ["include/salticidae/type.h:htole", "include/salticidae/type.h:letoh", "include/salticidae/stream.h:DataStream::operator<<"]}
{"id": "C06", "title": "Hex round trip", "statement": "get_hex prints two lower-case hex digits per unread byte, different unread bytes give different strings, and load_hex of that string (in either letter case) rebuilds exactly those bytes.", "quantifier": "every byte sequence and read position", "why_tests_cant": "all byte strings of all lengths", "anchors": ["include/salticidae/stream.h:DataStream::get_hex", "include/salticidae/stream.h:DataStream::load_hex", "include/salticidae/stream.h:Serializable::from_hex"]}
{"id": "C07", "title": "load_hex rejects malformed input", "statement": "load_hex throws on every string that is not an even number of hex digits, and a rejected call leaves the stream unchanged.", "quantifier": "every input string", "why_tests_cant": "the set of malformed strings is infinite; the interesting ones depend on sscanf's rules", "anchors": ["include/salticidae/stream.h:DataStream::load_hex"]}
{"id": "C08", "title": "Blob byte codec round trip", "statement": "A Blob<N> (uint256_t) built from N/8 bytes serialises to exactly those bytes on either host byte order, unserialising gives an equal blob, and building from any other number of bytes throws.", "quantifier": "every byte string, every N and word width, both host byte orders", "why_tests_cant": "2^256 values; all lengths; both byte orders", "anchors": ["include/salticidae/stream.h:Blob::load", "include/salticidae/stream.h:Blob::serialize", "include/salticidae/stream.h:Blob::unserialize", "include/salticidae/stream.h:Blob::Blob"]}
{"id": "C09", "title": "Blob comparison is a numeric total order", "statement": "operator< on Blob<N> is the numeric order of the blob read as a little-endian number; it is a strict total order compatible with == and !=, and equal blobs have equal hashes (so blobs can be used as map and hash-map keys).", "quantifier": "every pair/triple of blobs, every N and word width", "why_tests_cant": "order laws quantify over all triples of 256-bit values", "anchors": ["include/salticidae/stream.h:Blob::operator<", "include/salticidae/stream.h:Blob::operator==", "include/salticidae/stream.h:Blob::cheap_hash"]}
{"id": "C10", "title": "A null Blob stays recognisable", "statement": "is_null() tells an unset blob from a set one, also after copying through serialisation, and == separates the two.", "quantifier": "every blob", "why_tests_cant": "needs the comparison of every value against the unset one", "anchors": ["include/salticidae/stream.h:Blob::is_null", "include/salticidae/stream.h:Blob::operator==", "include/salticidae/stream.h:Blob::serialize"]}
{"id": "C11", "title": "Bits behaves as an array of independent bits", "statement": "After any sequence of set/unset/flip/clear on a Bits of n bits, get(i) for i<n is the value an array of n independent booleans would have; the operations never touch memory outside the object.", "quantifier": "every n, every operation sequence with in-range indices", "why_tests_cant": "unbounded sequences and sizes", "anchors": ["include/salticidae/stream.h:_Bits::get", "include/salticidae/stream.h:_Bits::set", "include/salticidae/stream.h:_Bits::unset", "include/salticidae/stream.h:_Bits::flip", "include/salticidae/stream.h:_Bits::clear"]}
{"id": "C12", "title": "Bits built from bytes", "statement": "A Bits built from a byte array has 8 bits per byte and get(i) is bit i%8 of byte i/8.", "quantifier": "every byte array, every word width", "why_tests_cant": "all byte arrays; the failing cases are undefined behaviour a test may not notice", "anchors": ["include/salticidae/stream.h:_Bits::load", "include/salticidae/stream.h:_Bits::_Bits(const bytearray_t &)"]}
{"id": "C13", "title": "Bits serialisation round trip", "statement": "Serialising a Bits and unserialising the result gives a Bits of the same size with the same bits; unserialising arbitrary received bytes either throws or gives a Bits all of whose size() indices are readable.", "quantifier": "every Bits value; every received byte string", "why_tests_cant": "sizes up to 2^32 bits and adversarial inputs", "anchors": ["include/salticidae/stream.h:_Bits::serialize", "include/salticidae/stream.h:_Bits::unserialize"]}
{"id": "C14", "title": "NetAddr wire round trip", "statement": "A NetAddr serialises to 6 bytes and unserialises to an equal address on any host; equality is equality of ip and port; equal addresses have equal hashes.", "quantifier": "every ip and port, both host byte orders", "why_tests_cant": "2^48 addresses, two byte orders", "anchors": ["include/salticidae/netaddr.h:NetAddr::serialize", "include/salticidae/netaddr.h:NetAddr::unserialize", "include/salticidae/netaddr.h:NetAddr::operator==", "include/salticidae/netaddr.h:hash<NetAddr>"]}
{"id": "C15", "title": "NetAddr text parsing", "statement": "Constructing a NetAddr from \"host:port\" accepts exactly a host, a colon and a decimal port in 0..65535, and stores that port; everything else is rejected with an error.", "quantifier": "every string", "why_tests_cant": "infinitely many malformed strings", "anchors": ["include/salticidae/netaddr.h:NetAddr::NetAddr(const std::string &)"]}
{"id": "C16", "title": "Message header round trip", "statement": "Parsing the first header_size bytes of a serialised message gives back its magic, opcode, length and checksum; the header has the advertised fixed size; a header that is too short throws.", "quantifier": "every header field value, every opcode width, both host byte orders for a host talking to itself", "why_tests_cant": "all field values", "anchors": ["include/salticidae/msg.h:MsgBase::MsgBase(DataStream &&)", "include/salticidae/msg.h:MsgBase::serialize", "include/salticidae/msg.h:MsgBase::header_size"]}
{"id": "C17", "title": "A message carries its payload faithfully", "statement": "A message built from a payload announces that payload's length, passes checksum verification, serialises to header followed by the payload, and hands the same payload back; verification of a received message succeeds only if the checksum of the received payload equals the announced one.", "quantifier": "every payload (below 4 GiB), every hash function", "why_tests_cant": "all payloads and all corruptions", "anchors": ["include/salticidae/msg.h:MsgBase::MsgBase(const MsgType &, uint32_t)", "include/salticidae/msg.h:MsgBase::set_payload", "include/salticidae/msg.h:MsgBase::get_payload", "include/salticidae/msg.h:MsgBase::verify_checksum"]}
{"id": "C18", "title": "A message always serialises to a well-formed frame", "statement": "Whatever was done to a message object before, serialize() yields a header whose length field is the number of payload bytes that follow, with the magic number, opcode and payload that were set last.", "quantifier": "every sequence of operations on a message object", "why_tests_cant": "needs every history of the object, including having taken the payload out, and payloads over 4 GiB", "anchors": ["include/salticidae/msg.h:MsgBase::serialize", "include/salticidae/msg.h:MsgBase::get_payload"]}
{"id": "C19", "title": "Hash list round trip", "statement": "parse_hash_list(gen_hash_list(l)) gives l for every list of hashes and consumes exactly what was generated; a truncated list throws.", "quantifier": "every list of fewer than 2^32 hashes, every truncation point", "why_tests_cant": "all lists and truncation points", "anchors": ["include/salticidae/msg.h:MsgBase::gen_hash_list", "include/salticidae/msg.h:MsgBase::parse_hash_list"]}
{"id": "C20", "title": "SegBuffer is a byte FIFO", "statement": "Under any sequence of push, rewind, pop(len), clear, the bytes popped are exactly the bytes pushed, in order (rewound data first), pop(len) returns min(len,size()) bytes, and size() is always the number of unpopped bytes, however the data is cut into segments.", "quantifier": "every operation sequence, every segmentation, every length", "why_tests_cant": "unbounded histories of segment boundaries and partial pops", "anchors": ["include/salticidae/buffer.h:SegBuffer::push", "include/salticidae/buffer.h:SegBuffer::rewind", "include/salticidae/buffer.h:SegBuffer::pop", "include/salticidae/buffer.h:SegBuffer::size"]}
{"id": "C21", "title": "SegBuffer::move_pop takes the next unread segment", "statement": "move_pop on a non-empty SegBuffer returns the unread bytes of the first segment and size() drops by that many.", "quantifier": "every reachable buffer", "why_tests_cant": "needs every interleaving with partial pops", "anchors": ["include/salticidae/buffer.h:SegBuffer::move_pop"]}
{"id": "C22", "title": "Messages survive any chunking", "statement": "If a peer sends any sequence of well-formed messages (payloads within max_msg_size), then however TCP cuts the byte stream into reads, the network delivers to the message queue exactly those messages, once each, in order, and keeps only the incomplete tail.", "quantifier": "every message sequence and every way of cutting the byte stream into chunks (while the queue has room)", "why_tests_cant": "the number of chunkings is exponential in the length of the stream", "anchors": ["include/salticidae/network.h:MsgNetwork::on_read", "include/salticidae/msg.h:MsgBase", "include/salticidae/buffer.h:SegBuffer"]}
{"id": "C23", "title": "Back-pressure neither loses, duplicates nor reorders", "statement": "When the message queue refuses a message, the message is retried later; at every moment, under any schedule of reads, refusals and retries, the messages accepted by the queue are a prefix of the messages in the byte stream, and nothing is skipped.", "quantifier": "every byte stream, every schedule of socket reads, queue refusals and retry timers", "why_tests_cant": "schedules are unbounded and timing dependent", "anchors": ["include/salticidae/network.h:MsgNetwork::on_read", "include/salticidae/network.h:MsgNetwork::on_worker_setup", "include/salticidae/network.h:MsgNetwork::Conn::msg_sleep"]}
{"id": "C24", "title": "A corrupted message is dropped alone", "statement": "A message whose payload does not match its checksum is never delivered, and the messages after it in the same stream are delivered as if it had not been there, as soon as they have been received.", "quantifier": "every mixture of good and corrupted messages, every chunking", "why_tests_cant": "all mixtures and chunkings", "anchors": ["include/salticidae/network.h:MsgNetwork::on_read", "include/salticidae/msg.h:MsgBase::verify_checksum"]}
{"id": "C25", "title": "Oversized messages kill only their connection", "statement": "No message longer than max_msg_size is ever delivered; receiving such a header ends that connection: nothing received after it on that connection is delivered, and the process survives.", "quantifier": "every byte stream and every schedule of reads and retries", "why_tests_cant": "adversarial streams and schedules", "anchors": ["include/salticidae/network.h:MsgNetwork::on_read", "include/salticidae/network.h:MsgNetwork::on_worker_setup", "include/salticidae/conn.h:ConnPool::Worker::feed"]}
{"id": "C26", "title": "Receive buffering is bounded", "statement": "With max_recv_buff_size = m > 0, a connection never buffers more than m chunks (m * recv_chunk_size bytes) of received data, whatever the peer sends and however slowly messages are consumed.", "quantifier": "every peer behaviour and schedule", "why_tests_cant": "unbounded traffic", "anchors": ["src/conn.cpp:ConnPool::_recv_data", "include/salticidae/network.h:MsgNetwork::on_read", "include/salticidae/conn.h:ConnPool::Config::max_recv_buff_size"]}
{"id": "C27", "title": "A connection never stalls for good", "statement": "As long as the queue has room, data that arrived on a live connection is eventually read and complete messages are delivered: the connection is never left with reading disabled and nothing that will enable it again.", "quantifier": "every traffic pattern, chunk size and buffer limit", "why_tests_cant": "requires ruling out a stuck state over all schedules", "anchors": ["src/conn.cpp:ConnPool::_recv_data", "include/salticidae/network.h:MsgNetwork::on_read"]}
{"id": "C28", "title": "Messages received before the peer closes are delivered", "statement": "If the peer sends complete messages and then closes the connection, every message that reached the socket before the close is delivered.", "quantifier": "every stream and every alignment of the data with the read size", "why_tests_cant": "depends on the exact alignment of data, chunk size and close", "anchors": ["src/conn.cpp:ConnPool::_recv_data", "src/conn.cpp:ConnPool::_recv_data_tls"]}
{"id": "C29", "title": "Foreign magic is rejected", "statement": "A network configured with a magic value only delivers messages carrying that magic value.", "quantifier": "every received message and configured magic", "why_tests_cant": "all magics", "anchors": ["include/salticidae/network.h:MsgNetwork::on_read", "include/salticidae/network.h:MsgNetwork::Config::msg_magic", "include/salticidae/msg.h:MsgBase::get_magic"]}
{"id": "C30", "title": "The bytes on the wire are the bytes written", "statement": "Under any sequence of Conn::write calls and any pattern of partial, refused or complete kernel sends, the bytes handed to the kernel so far are a prefix of the concatenation of the written byte arrays, with nothing lost, duplicated or reordered.", "quantifier": "every write sequence, every pattern of kernel results", "why_tests_cant": "kernel behaviour patterns are unbounded", "anchors": ["src/conn.cpp:ConnPool::_send_data", "include/salticidae/buffer.h:MPSCWriteBuffer", "include/salticidae/conn.h:ConnPool::Conn::write"]}
{"id": "C31", "title": "Written data is eventually sent", "statement": "If the connection stays up and the kernel keeps accepting data, everything written is sent: the connection is never idle (waiting neither for writability nor for a notification) with unsent data.", "quantifier": "every write sequence and kernel pattern", "why_tests_cant": "absence of a stuck state over all schedules", "anchors": ["src/conn.cpp:ConnPool::_send_data", "include/salticidae/conn.h:ConnPool::Worker::enable_send_buffer", "include/salticidae/event.h:MPSCQueueEventDriven"]}
{"id": "C32", "title": "End-to-end message delivery", "statement": "Messages sent on a connection are delivered by the other end in order, exactly once, unmodified, for every way the sender's kernel splits its sends and the receiver's kernel splits its reads.", "quantifier": "every message list, every send split, every read split", "why_tests_cant": "product of two unbounded nondeterministic choices", "anchors": ["include/salticidae/network.h:MsgNetwork::_send_msg", "src/conn.cpp:ConnPool::_send_data", "src/conn.cpp:ConnPool::_recv_data", "include/salticidae/network.h:MsgNetwork::on_read"]}
{"id": "C33", "title": "Parsing received messages matches dispatch", "statement": "Each delivered message is given to the handler registered last for its opcode, exactly once, in delivery order; messages with no handler are dropped; a handler that fails to parse terminates only that connection; at most burst_size messages are handled per wake-up and the rest are handled later.", "quantifier": "every registration history and message sequence, every burst size", "why_tests_cant": "unbounded message sequences", "anchors": ["include/salticidae/network.h:MsgNetwork::MsgNetwork", "include/salticidae/network.h:MsgNetwork::reg_handler", "include/salticidae/network.h:MsgNetwork::set_handler"]}
{"id": "C34", "title": "MPSC queue is a linearizable FIFO", "statement": "For any number of producers calling enqueue concurrently with one consumer calling try_dequeue, every successfully enqueued element is dequeued at most once, nothing else is dequeued, elements come out in the order in which their enqueues took effect (so per producer in program order), and try_dequeue reports empty only if the queue was empty at some moment during the call.", "quantifier": "every interleaving of the atomic steps of any number of threads (sequentially consistent memory), every element sequence, every block size", "why_tests_cant": "interleavings are unbounded; stress tests sample a few", "anchors": ["include/salticidae/queue.h:MPMCQueue::_enqueue", "include/salticidae/queue.h:MPSCQueue::try_dequeue", "include/salticidae/queue.h:FreeList"]}
{"id": "C35", "title": "Queue capacity", "statement": "A queue given capacity c refuses a bounded enqueue only when it really holds elements of at least the configured order (never when empty), accepts at least c elements from empty, never holds more than (1 + max(c/4096,1)) blocks of elements, and a refused enqueue changes nothing.", "quantifier": "every capacity and operation sequence", "why_tests_cant": "all capacities and histories", "anchors": ["include/salticidae/queue.h:MPMCQueue::set_capacity", "include/salticidae/queue.h:MPMCQueue::_enqueue"]}
{"id": "C36", "title": "rewind puts an element back in front", "statement": "After the consumer rewinds an element, the next try_dequeue returns that element and everything else keeps its order, at every position inside the internal blocks.", "quantifier": "every operation sequence", "why_tests_cant": "block boundary cases at all positions of unbounded histories", "anchors": ["include/salticidae/queue.h:MPSCQueue::rewind"]}
{"id": "C37", "title": "MPMC queue loses and duplicates nothing", "statement": "With any number of producers and consumers every enqueued element is dequeued exactly once unless still queued.", "quantifier": "every interleaving of any number of producers and consumers", "why_tests_cant": "needs rare interleavings (a stalled consumer and a recycled block)", "anchors": ["include/salticidae/queue.h:MPMCQueue::try_dequeue", "include/salticidae/queue.h:MPMCQueue::_enqueue"]}
{"id": "C38", "title": "Free list never hands a node to two owners", "statement": "Under any interleaving of pushes and pops by any number of threads, a popped node has one owner until that owner pushes it back, no node is lost from the list while nobody is using it, and the list never becomes cyclic (no ABA).", "quantifier": "every interleaving, every number of threads and nodes", "why_tests_cant": "ABA interleavings", "anchors": ["include/salticidae/queue.h:FreeList::push", "include/salticidae/queue.h:FreeList::pop", "include/salticidae/queue.h:FreeList::release_ref"]}
{"id": "C39", "title": "No lost wake-up", "statement": "While an element is in an event-driven queue, either a consumer's callback is running and will look at the queue again or signal, or the notification fd is readable, or some enqueue call has not returned yet and is still to signal; so once all enqueues have returned and the callbacks have ended with the fd not readable, the queue is empty: no element is left unnoticed, and when an element is left, the event loop of any consumer can run, whose callback hands out everything that is in the queue.", "quantifier": "every interleaving of any number of producers with the consumer callback", "why_tests_cant": "lost wake-ups need exact interleavings", "anchors": ["include/salticidae/event.h:MPSCQueueEventDriven", "include/salticidae/event.h:NotifyFd"]}
{"id": "C40", "title": "ThreadCall runs every call once and in order", "statement": "Every call submitted to a running ThreadCall is executed exactly once, in submission order, whatever the burst size, and calls raised during a call are executed later; a synchronous caller receives its own result or exception.", "quantifier": "every submission history, burst size and exception pattern", "why_tests_cant": "unbounded histories", "anchors": ["include/salticidae/event.h:ThreadCall::async_call", "include/salticidae/event.h:ThreadCall::call", "include/salticidae/event.h:ThreadCall::Handle::exec"]}
{"id": "C41", "title": "Synchronous calls always return", "statement": "Every ThreadCall::call returns to its caller (with a result or an error), also when the ThreadCall is stopped or destroyed concurrently.", "quantifier": "every schedule of calls, stop and destruction", "why_tests_cant": "blocking forever in a rare order", "anchors": ["include/salticidae/event.h:ThreadCall::stop", "include/salticidae/event.h:ThreadCall::~ThreadCall", "include/salticidae/event.h:ThreadCall::call"]}
{"id": "C42", "title": "Reference-counted object lifetime", "statement": "For any sequence of creating, copying, moving, assigning, casting and dropping RcObj handles and weak handles, the object is destroyed exactly when its last strong handle goes away, once, the control block is freed once after all handles are gone, and a weak handle upgrades to a live object or to null.", "quantifier": "every operation sequence on any number of handles and objects", "why_tests_cant": "unbounded histories of handles", "anchors": ["include/salticidae/ref.h:_RcObjBase", "include/salticidae/ref.h:_WeakObjBase", "include/salticidae/ref.h:_RCCtl"]}
{"id": "C43", "title": "Moved-from handles are null", "statement": "After moving from an RcObj/ArcObj, the source handle tests false and does not point at the object.", "quantifier": "every history", "why_tests_cant": "dangling pointers show only when the object dies later", "anchors": ["include/salticidae/ref.h:_RcObjBase::_RcObjBase(_RcObjBase &&)", "include/salticidae/ref.h:_RcObjBase::operator bool"]}
{"id": "C44", "title": "Atomic reference counting is safe and leak free", "statement": "With any number of threads copying and dropping ArcObj handles concurrently, the object is destroyed exactly once, after the last handle is dropped, no thread touches a freed control block, and the control block is freed once all handles are gone.", "quantifier": "every interleaving of any number of threads", "why_tests_cant": "race windows of a few instructions", "anchors": ["include/salticidae/ref.h:_ARCCtl::release_ref", "include/salticidae/ref.h:_ARCCtl::release_weak", "include/salticidae/ref.h:_ARCCtl::add_ref"]}
{"id": "C45", "title": "Upgrading an atomic weak handle is safe", "statement": "Upgrading an AweakObj concurrently with other threads dropping the last ArcObj gives either null or a handle to a live object.", "quantifier": "every interleaving", "why_tests_cant": "race window of a few instructions", "anchors": ["include/salticidae/ref.h:_RcObjBase::_RcObjBase(const _WeakObjBase &)"]}
{"id": "C46", "title": "BoxObj is a unique owner", "statement": "Under any sequence of moves, assignments, releases and casts, every object held by BoxObj handles has exactly one owner and is destroyed exactly once.", "quantifier": "every operation sequence", "why_tests_cant": "double free needs a particular history", "anchors": ["include/salticidae/ref.h:_BoxObj", "include/salticidae/ref.h:static_pointer_cast(BoxObj &&)"]}
{"id": "C47", "title": "A connection is torn down exactly once", "statement": "However many times and from whichever threads terminate is requested (user, worker error, dispatcher), a connection's teardown hooks run exactly once, it is removed from the pool and its descriptor closed exactly once, and the disconnect callback is invoked exactly once.", "quantifier": "every schedule of terminate requests and closures over the worker, dispatcher and user queues", "why_tests_cant": "cross-thread schedules", "anchors": ["src/conn.cpp:ConnPool::worker_terminate", "src/conn.cpp:ConnPool::disp_terminate", "src/conn.cpp:ConnPool::del_conn", "include/salticidae/conn.h:ConnPool::Conn::set_terminated"]}
{"id": "C48", "title": "Connected comes before disconnected", "statement": "For every connection the connection callback reports connected at most once, and never after it reported disconnected.", "quantifier": "every schedule", "why_tests_cant": "requires racing terminate with connection establishment", "anchors": ["src/conn.cpp:ConnPool::disp_terminate", "src/conn.cpp:ConnPool::conn_server", "include/salticidae/conn.h:ConnPool::Worker::feed", "include/salticidae/conn.h:ConnPool::update_conn"]}
{"id": "C49", "title": "The connection callback gates traffic", "statement": "If the connection callback returns false for a new connection, the connection is terminated and no message received on it is delivered; no message is delivered before the callback approved the connection.", "quantifier": "every schedule, TLS and non-TLS", "why_tests_cant": "needs all orders of data arrival and approval", "anchors": ["include/salticidae/conn.h:ConnPool::update_conn", "include/salticidae/conn.h:ConnPool::Worker::feed", "src/conn.cpp:ConnPool::_recv_data_dummy"]}
{"id": "C50", "title": "New connections go to a least-loaded worker", "statement": "A new connection is assigned to an existing worker that has the fewest connections, and worker load counts stay equal to the number of connections each worker serves.", "quantifier": "every number of workers and history of feeds and teardowns", "why_tests_cant": "all load vectors and histories", "anchors": ["include/salticidae/conn.h:ConnPool::select_worker", "include/salticidae/conn.h:ConnPool::Worker::feed", "include/salticidae/conn.h:ConnPool::Worker::unfeed"]}
{"id": "C51", "title": "A listening pool keeps accepting", "statement": "After listen(), every later incoming connection is accepted as long as the pool runs; a transient accept failure does not stop listening.", "quantifier": "every sequence of accept results", "why_tests_cant": "needs injected OS failures", "anchors": ["src/conn.cpp:ConnPool::accept_client"]}
{"id": "C52", "title": "Asynchronous operation ids", "statement": "The id returned by an asynchronous operation (connect, add_peer, send_msg_deferred, ...) is never -1 and identifies the operation: errors reported with that id belong to it.", "quantifier": "every number of operations", "why_tests_cant": "uniqueness over unbounded operation counts", "anchors": ["include/salticidae/conn.h:ConnPool::gen_async_id", "include/salticidae/conn.h:ConnPool::recoverable_error"]}
{"id": "C53", "title": "Connected clients are addressable", "statement": "ClientNetwork::send_msg(addr) reaches the connection of the client currently connected from addr, whatever the order in which connections from the same address come and go, and throws if there is none.", "quantifier": "every sequence of client connections and disconnections", "why_tests_cant": "needs reordering of teardown and setup for one address", "anchors": ["include/salticidae/network.h:ClientNetwork::on_dispatcher_setup", "include/salticidae/network.h:ClientNetwork::on_dispatcher_teardown", "include/salticidae/network.h:ClientNetwork::_send_msg"]}
{"id": "C54", "title": "Crossing handshakes agree on one connection", "statement": "When two peers that know each other's address connect to each other at the same time, then for nonces a and b both ends keep the same one of the two connections if a differs from b, and none of them if a = b.", "quantifier": "every pair of nonces and every order in which the handshake messages of the two connections are processed", "why_tests_cant": "2^32 nonce pairs times message orders", "anchors": ["include/salticidae/network.h:PeerNetwork::ping_handler", "include/salticidae/network.h:PeerNetwork::pong_handler", "include/salticidae/network.h:PeerNetwork::Peer::get_nonce"]}
{"id": "C55", "title": "One-sided handshakes agree", "statement": "When only one side dials (the other added the peer without an address), the two ends agree on keeping the connection.", "quantifier": "every nonce the library can draw", "why_tests_cant": "fails for 2 of 65536 random nonces", "anchors": ["include/salticidae/network.h:PeerNetwork::ping_handler", "include/salticidae/network.h:PeerNetwork::pong_handler", "include/salticidae/network.h:PeerNetwork::passive_nonce"]}
{"id": "C56", "title": "Bounded connection attempts", "statement": "conn_peer(pid, ntry = n) with n > 0 makes at most n consecutive failing attempts, n < 0 retries for ever and n = 0 stops retrying.", "quantifier": "every n and every sequence of timer and failure events", "why_tests_cant": "unbounded event sequences", "anchors": ["include/salticidae/network.h:PeerNetwork::conn_peer", "include/salticidae/network.h:PeerNetwork::on_dispatcher_teardown"]}
{"id": "C57", "title": "Peer state follows its connection", "statement": "Whenever a peer is reported connected its connection is the one used to send; when that connection is torn down the peer is reported disconnected and a later handshake can connect it again; tearing down any other connection does not disturb a connected peer.", "quantifier": "every sequence of dispatcher events (dial, timers, ping, pong, teardown, manual connect, reset, delete)", "why_tests_cant": "needs overlapping connections and stale teardowns", "anchors": ["include/salticidae/network.h:PeerNetwork::finish_handshake", "include/salticidae/network.h:PeerNetwork::on_dispatcher_teardown", "include/salticidae/network.h:PeerNetwork::start_active_conn", "include/salticidae/network.h:PeerNetwork::conn_peer"]}
{"id": "C58", "title": "Peer membership", "statement": "has_peer(pid) is true exactly between a successful add_peer(pid) and the next successful del_peer(pid); adding a known peer and operating on an unknown one report errors and change nothing.", "quantifier": "every sequence of membership operations", "why_tests_cant": "unbounded histories", "anchors": ["include/salticidae/network.h:PeerNetwork::add_peer", "include/salticidae/network.h:PeerNetwork::del_peer", "include/salticidae/network.h:PeerNetwork::has_peer", "include/salticidae/network.h:PeerNetwork::set_peer_addr"]}
{"id": "C59", "title": "Pending connection count", "statement": "get_npending() returns the number of connections waiting for a handshake.", "quantifier": "every number of pending connections", "why_tests_cant": "wrong only from two pending connections on", "anchors": ["include/salticidae/network.h:PeerNetwork::get_npending", "include/salticidae/event.h:ThreadCall::Handle::set_result"]}
{"id": "C60", "title": "Heartbeat", "statement": "While connected a node has at most one unanswered heartbeat, waits at least ping_period between heartbeats, drops a silent peer within conn_timeout of the last heartbeat, and never drops a peer that answers fast enough.", "quantifier": "every timing of timers and answers", "why_tests_cant": "real-time behaviour over unbounded runs", "anchors": ["include/salticidae/network.h:PeerNetwork::send_ping", "include/salticidae/network.h:PeerNetwork::ping_timer", "include/salticidae/network.h:PeerNetwork::reset_ping_timer", "include/salticidae/network.h:PeerNetwork::on_dispatcher_setup"]}
{"id": "C61", "title": "Messages queued for a peer survive reconnection", "statement": "Messages accepted by send_msg(pid) while the peer is reconnecting are sent on the next connection, in order, and the new connection carries only whole messages.", "quantifier": "every interleaving of sends, partial kernel sends and reconnections", "why_tests_cant": "needs a reconnection in the middle of a partially sent message, or racing a send", "anchors": ["include/salticidae/network.h:PeerNetwork::finish_handshake", "include/salticidae/network.h:PeerNetwork::_send_msg"]}
{"id": "C62", "title": "Multicast", "statement": "multicast_msg sends the same message to every listed peer; if a peer is unknown an error is reported, the peers before it have been sent the message and the ones after it have not.", "quantifier": "every peer list and membership", "why_tests_cant": "all lists", "anchors": ["include/salticidae/network.h:PeerNetwork::_multicast_msg"]}
{"id": "C63", "title": "Unknown peers stay out", "statement": "A connection from an identity that was not added is reported to the unknown-peer callback and terminated, never becomes a peer's connection and never triggers the peer callback.", "quantifier": "every event sequence", "why_tests_cant": "all histories of membership and handshakes", "anchors": ["include/salticidae/network.h:PeerNetwork::ping_handler", "include/salticidae/network.h:PeerNetwork::pong_handler", "include/salticidae/network.h:PeerNetwork::on_dispatcher_setup"]}
{"id": "C64", "title": "split", "statement": "split(s, delim) for a non-empty delim returns pieces that contain no delim and that joined with delim give back s; it returns for every delim.", "quantifier": "all strings and delimiters", "why_tests_cant": "infinitely many strings", "anchors": ["src/util.cpp:split"]}
{"id": "C65", "title": "trim", "statement": "trim removes exactly the leading and trailing blanks; it is idempotent.", "quantifier": "all strings", "why_tests_cant": "infinitely many strings", "anchors": ["src/util.cpp:trim", "src/util.cpp:trim_all"]}
{"id": "C66", "title": "Configuration precedence", "statement": "After parsing, a SET_VAL option holds the last value assigned to it (command line after the files it names, in order), an APPEND option holds all of them in order, a flag is on iff it was mentioned, and options never mentioned keep their default.", "quantifier": "all option tables, files and command lines", "why_tests_cant": "infinitely many inputs", "anchors": ["src/util.cpp:Config::parse", "src/util.cpp:Config::load", "src/util.cpp:Config::update"]}
{"id": "C67", "title": "Option registration", "statement": "Registering an option name twice is rejected; every registered option is reachable by its own name and by its own short name.", "quantifier": "all registration sequences", "why_tests_cant": "all sequences", "anchors": ["src/util.cpp:Config::add_opt"]}
{"id": "C68", "title": "stringprintf returns the whole text", "statement": "stringprintf returns exactly the formatted text, whatever its length.", "quantifier": "every formatted text", "why_tests_cant": "only texts of 1024 characters or more are affected", "anchors": ["src/util.cpp:vstringprintf"]}
{"id": "C69", "title": "Random timeouts", "statement": "gen_rand_timeout(base) lies between base and 1.5 base.", "quantifier": "every base and every random draw", "why_tests_cant": "all random draws", "anchors": ["src/util.cpp:gen_rand_timeout"]}
{"id": "C70", "title": "C API reports failed reads", "statement": "datastream_get_* of the C API sets *succ to true exactly when a value was read.", "quantifier": "every stream state and width", "why_tests_cant": "all stream states", "anchors": ["src/stream.cpp:datastream_get_u8", "src/stream.cpp:datastream_get_i64"]}
{"id": "C71", "title": "Stopping a pool", "statement": "start/stop form a one-way lifecycle: start works once, stop is idempotent, every connection of the pool is torn down by stop, and no operation restarts a stopped pool.", "quantifier": "every sequence of start and stop calls and pool contents", "why_tests_cant": "all histories", "anchors": ["include/salticidae/conn.h:ConnPool::start", "include/salticidae/conn.h:ConnPool::stop", "include/salticidae/conn.h:ConnPool::stop_workers"]}
{"id": "C72", "title": "Event handle ownership", "statement": "Under any sequence of creation, move, assignment, swap, use and destruction of event objects, and any events of the loop, events behave as values that move between variables: each open handle of the loop library belongs to exactly one live event object, whose callback it invokes; it is closed exactly once, when no object holds it; nothing freed is used; a loop lives as long as a context or an event refers to it and everything is freed at the end.", "quantifier": "every sequence of operations on any number of event objects", "why_tests_cant": "dangling data pointers after moves", "anchors": ["include/salticidae/event.h:FdEvent", "include/salticidae/event.h:TimerEvent", "include/salticidae/event.h:TimedFdEvent"]}
{"id": "C73", "title": "Hosts of different byte order interoperate", "statement": "A message sent by a host of one byte order is received by a host of the other byte order with the same opcode, length and magic, and passes the checksum test.", "quantifier": "every message, every pair of host byte orders", "why_tests_cant": "needs machines of both byte orders; all opcodes and payloads", "anchors": ["include/salticidae/msg.h:MsgBase::serialize", "include/salticidae/msg.h:MsgBase::MsgBase", "include/salticidae/msg.h:MsgBase::get_checksum"]}
{"id": "C74", "title": "sec2tv normalises", "statement": "For every non-negative number of seconds sec2tv yields a normalised timeval: whole seconds, and microseconds from 0 to 999999, that together are at most the time and less than one microsecond below it (up to one rounding of double precision).", "quantifier": "every non-negative time", "why_tests_cant": "a continuum of times", "anchors": ["src/util.cpp:sec2tv"]}
{"id": "C75", "title": "Parsing the configuration returns", "statement": "Config::parse returns, normally or with an exception, for every option table, every set of configuration files and every command line.", "quantifier": "all option tables, files and command lines", "why_tests_cant": "depends on files naming one another", "anchors": ["src/util.cpp:Config::load", "include/salticidae/util.h:Config::OptValConf"]}
{"id": "C76", "title": "Error codes and what the C API reports", "statement": "Every error code of the library has its own description and every other number the unknown-error description; a C API call that fails reports the library's code and the operating system's code of the error, one that succeeds reports zero for both, and no exception crosses the C boundary.", "quantifier": "every error code and every outcome of a wrapped call", "why_tests_cant": "all numbers as codes; an uninitialised field reads as anything", "anchors": ["src/util.cpp:salticidae_strerror", "src/util.cpp:SALTICIDAE_ERROR_STRINGS", "include/salticidae/util.h:SalticidaeError", "include/salticidae/util.h:SALTICIDAE_CERROR_TRY"]}
{"id": "C77", "title": "No sequence of peer events is undefined behaviour", "statement": "Whatever the order of user calls, timers, connection events and messages from remote nodes, a PeerNetwork never uses a deleted peer, calls through a null connection or reads an uninitialised flag.", "quantifier": "every sequence of user calls, timers, connection events and remote messages", "why_tests_cant": "needs particular orders of events, some of them chosen by a remote node; undefined behaviour need not be visible", "anchors": ["include/salticidae/network.h:PeerNetwork::pong_handler", "include/salticidae/network.h:PeerNetwork::on_dispatcher_teardown", "include/salticidae/network.h:PeerNetwork::conn_peer", "include/salticidae/network.h:PeerNetwork::del_peer"]}
{"id": "C78", "title": "Event objects read no member that was never set", "statement": "No operation on event objects, default-constructed ones included, reads a member that has not been given a value.", "quantifier": "every sequence of operations on any number of event objects", "why_tests_cant": "an indeterminate value reads as anything; a test sees nothing", "anchors": ["include/salticidae/event.h:FdEvent::swap", "include/salticidae/event.h:TimedFdEvent::TimedFdEvent", "include/salticidae/event.h:TimedFdEvent::swap"]}
{"id": "C79", "title": "A callback exists while it runs", "statement": "The function an event calls, with everything it has captured, exists until it returns, whatever it does to the event that called it.", "quantifier": "every sequence of operations, inside and outside callbacks", "why_tests_cant": "use of a destroyed closure need not be visible", "anchors": ["include/salticidae/event.h:FdEvent::clear", "include/salticidae/event.h:TimerEvent::clear", "include/salticidae/event.h:TimedFdEvent::clear", "include/salticidae/event.h:MPSCQueueEventDriven::unreg_handler"]}
{"id": "C80", "title": "TLS connections of one worker do not disturb each other", "statement": "What becomes of a TLS connection (what it delivers, sends, and whether it is terminated) depends only on its own handshake, traffic, writes and teardown, not on what happens to the other connections of the pool that are served by the same worker thread.", "quantifier": "every history of every set of TLS connections on one worker", "why_tests_cant": "needs a failure of one connection followed by an idle moment of another on the same thread; with several workers the two may not even meet", "anchors": ["src/conn.cpp:_recv_data_tls", "src/conn.cpp:_send_data_tls", "include/salticidae/crypto.h:TLS::get_error", "include/salticidae/conn.h:on_worker_teardown"]}
{"id": "C81", "title": "A full socket buffer does not terminate a TLS connection", "statement": "A TLS connection on which nothing fails (no alert, reset, refusal, end of stream, oversized message) is not terminated by the library, however often the kernel's send buffer is full.", "quantifier": "every history without failures", "why_tests_cant": "test peers read faster than the buffer fills; the failure needs a slow reader and a particular allocator behaviour", "anchors": ["src/conn.cpp:_send_data_tls", "include/salticidae/crypto.h:TLS", "include/salticidae/buffer.h:MPSCWriteBuffer::move_pop"]}
{"id": "C82", "title": "TLS transfers both streams intact", "statement": "On a TLS connection the messages delivered are always a prefix of those the peer's plaintext stands for, and the plaintext sent is always a prefix of what was written, in order, without gap or repetition; what is not sent is still queued and will be taken up again.", "quantifier": "every history, with every record size, partial write and blocked operation", "why_tests_cant": "depends on record boundaries, partial writes and their interleaving with reads", "anchors": ["src/conn.cpp:_recv_data_tls", "src/conn.cpp:_send_data_tls", "include/salticidae/network.h:MsgNetwork::on_read"]}
{"id": "C83", "title": "No data is stranded inside the TLS layer", "statement": "A live TLS connection that waits for its socket to become readable holds no received and decrypted bytes back in the TLS layer, where no socket event would announce them.", "quantifier": "every history, with every record size and chunk size", "why_tests_cant": "needs particular record and chunk sizes; the symptom is a message delivered late", "anchors": ["src/conn.cpp:_recv_data_tls", "include/salticidae/crypto.h:TLS::recv"]}
{"id": "C84", "title": "Nothing passes before the TLS handshake", "statement": "With TLS enabled no message is delivered from a connection before its handshake has completed with a certificate of the peer and the connection callback has accepted it, and nothing written is sent before the handshake has completed; the callback is called at most once; a connection it refuses is terminated.", "quantifier": "every history of handshake steps, failures, callbacks, arriving data and writes", "why_tests_cant": "interleavings of the handshake with data, writes and the callback on another thread", "anchors": ["src/conn.cpp:_send_data_tls_handshake", "src/conn.cpp:_recv_data_tls_handshake", "include/salticidae/conn.h:update_conn", "include/salticidae/crypto.h:TLS::do_handshake"]}
{"id": "C85", "title": "Queued data is sent although data keeps arriving", "statement": "A live connection with queued data whose socket is found writable again and again sends some of it after finitely many socket callbacks, whatever the peer sends meanwhile.", "quantifier": "every sequence of arriving data and socket callbacks", "why_tests_cant": "a liveness property under an adversarial peer", "anchors": ["include/salticidae/conn.h:Worker::feed", "src/conn.cpp:_send_data", "src/conn.cpp:_recv_data"]}
{"id": "C86", "title": "A connected peer has a heartbeat", "statement": "Over each connection the node sends one ping when the connection is reported connected and one more each time the ping period has passed and the last ping has been answered, none before, after it is reported lost, or after the peer is deleted; the ping timer runs only while the peer is connected; every heartbeat ping received over an open connection is answered once; and the heartbeat of a connected peer never stops for good.", "quantifier": "every sequence of user calls, messages, timer expiries and connection events", "why_tests_cant": "depends on the order of timer expiries, answers, handshakes and teardowns over several connections", "anchors": ["include/salticidae/network.h:Peer::ping_timer", "include/salticidae/network.h:Peer::send_ping", "include/salticidae/network.h:Peer::reset_ping_timer", "include/salticidae/network.h:ping_handler", "include/salticidae/network.h:pong_handler", "include/salticidae/network.h:finish_handshake"]}
{"id": "C87", "title": "The answer to a send is true", "statement": "send_msg returns true exactly when the message has been appended to the send buffer of the connection it is for, false when that buffer refused it, and throws when there is no such peer or client, also through the C functions; send_msg_deferred and multicast_msg report an error with their id exactly when the message did not reach all its targets; deferred calls run once each, in order; and a multicast reaches every listed peer whose buffer has room.", "quantifier": "every history of calls, every content of the maps of peers and clients, every pattern of refusals by the buffers", "why_tests_cant": "refusals depend on how fast the remote ends read; the error arrives later, in another thread", "anchors": ["include/salticidae/network.h:MsgNetwork::_send_msg", "include/salticidae/network.h:MsgNetwork::_send_msg_deferred", "include/salticidae/network.h:PeerNetwork::_send_msg_deferred", "include/salticidae/network.h:PeerNetwork::_multicast_msg", "include/salticidae/network.h:ClientNetwork::_send_msg_deferred", "src/network.cpp:peernetwork_send_msg", "src/network.cpp:clientnetwork_send_msg", "include/salticidae/conn.h:recoverable_error"]}
{"id": "C88", "title": "The identity of a peer", "statement": "The identity of a node made from its address is the hash of the four bytes of the address and of the port, most significant byte first, the same on hosts of either byte order; the identity made from a certificate is the hash of its DER form; different addresses, different certificates, and an address and a certificate have different identities unless the hash of their byte forms collides; and the other end of a connection is identified by its certificate exactly when the network uses TLS and identities by certificate.", "quantifier": "every address, port, certificate, byte order and mode; every hash function with 32-byte digests", "why_tests_cant": "a claim about all pairs of addresses and certificates and about hosts of both byte orders", "anchors": ["include/salticidae/network.h:PeerId", "include/salticidae/network.h:_get_peer_id", "include/salticidae/stream.h:DataStream::get_hash", "include/salticidae/netaddr.h:NetAddr::serialize"]}
{"id": "C89", "title": "Digest objects", "statement": "Every digest that a SHA256 or SHA1 object gives is exactly the hash of the bytes given to it since it was made or last reset, however they were divided into updates, and nothing of what the caller's array held before remains in it; the hash of a stream is the hash of its unread bytes.", "quantifier": "every sequence of updates, resets and digests of every length", "why_tests_cant": "ranges over all inputs and all divisions of them", "anchors": ["include/salticidae/crypto.h:SHA256", "include/salticidae/crypto.h:SHA1", "include/salticidae/stream.h:DataStream::get_hash"]}
{"id": "C90", "title": "A synchronous call", "statement": "A synchronous call to another thread returns the last result its callback set, or throws what the callback threw; it returns after a bounded number of steps of the two threads, whatever their order and whatever spurious wake-ups occur; neither thread uses an object that is gone; and every result is freed.", "quantifier": "every callback, every schedule of the two threads, every number of spurious wake-ups", "why_tests_cant": "the window between the unlocking of the mutex and the destruction of the notifier on the caller's stack is a few instructions long", "anchors": ["include/salticidae/event.h:ThreadNotifier", "include/salticidae/event.h:ThreadCall::Result", "include/salticidae/event.h:ThreadCall::Handle", "include/salticidae/event.h:ThreadCall::call"]}
{"id": "C91", "title": "Descriptors of the network: none leaked, none of the application closed", "statement": "The network never closes a descriptor that it does not have open, never touches a descriptor of the application, and after stop() has none left open. (Violated: stop() of a MsgNetwork, PeerNetwork or ClientNetwork leaves the listening socket open until the network is destroyed; and a socket whose setsockopt or fcntl fails, in connect or in accepting a client, is never closed. These are the only ones left open: every other descriptor the library has open is that of a connection that is not terminated.)", "quantifier": "every history of listen, connect, connect_sync, accepted clients, terminations and stop, with any system call failing at any time and the system giving out any unused descriptor number", "why_tests_cant": "which descriptor number is reused, and which system call fails when, is up to the system; a double close hits an unrelated file only under reuse", "anchors": ["src/conn.cpp: ConnPool::accept_client, ConnPool::_listen, ConnPool::_connect, ConnPool::del_conn, ConnPool::release_conn", "include/salticidae/conn.h: ConnPool::stop, ConnPool::stop_workers, ConnPool::~ConnPool", "include/salticidae/network.h: MsgNetwork::stop"]}
{"id": "C92", "title": "Outcome of connect() and listen()", "statement": "Every connect() either leads to a connection that is set up, or to exactly one error reported with the number that the call returned. (Violated: if the system refuses at once nothing is reported; if the other side refuses or the attempt times out the error carries the number -1, and may be reported repeatedly. What holds: failures before there is a socket that is set up are reported exactly once with the number; every other call makes exactly one connection, which is set up or of whose end the handler is told exactly once.) The network accepts on the port of the last successful listen(), unless a later listen() or an accept() has failed.", "quantifier": "every history of calls, events and failures of system calls", "why_tests_cant": "needs failing system calls at each point and all orders of the events that follow", "anchors": ["src/conn.cpp: ConnPool::_connect, ConnPool::conn_server, ConnPool::_listen, ConnPool::accept_client, ConnPool::disp_terminate", "include/salticidae/conn.h: ConnPool::connect, ConnPool::connect_sync, ConnPool::listen, ConnPool::recoverable_error"]}
{"id": "C93", "title": "Fatal errors", "statement": "Every fatal error that occurs on a thread of a started network is reported to the error callback exactly once, and the workers then end. (Violated: once one error has been handled by the dispatcher, errors forwarded by other workers are dropped. What holds: no error is reported that did not occur, or more often than it occurred; if some error occurred then one is reported and all workers but the dispatcher end; a single error is reported exactly once; after it the dispatcher runs no more queued closures, and calls are refused with SALTI_ERROR_NOT_AVAIL.)", "quantifier": "every number of workers, every history of closures, failing closures and timers, calls, starts and stops, every schedule", "why_tests_cant": "several errors on several threads race with the forwarding of the first and with stop()", "anchors": ["include/salticidae/conn.h: ConnPool::ConnPool (disp_error_cb, worker_error_cb), Worker::stop, Worker::stop_tcall, Worker::feed", "include/salticidae/event.h:ThreadCall::ThreadCall", "include/salticidae/event.h:ThreadCall::stop"]}
{"id": "C94", "title": "Start, stop, and calls that wait", "statement": "Every call that waits for the dispatcher (listen, connect_sync, get_peer_conn, ...) returns, exactly once and in order; stop() returns, and when it has, all threads of the network have ended. (Violated: a call before start(), or not yet served when stop() ends the dispatcher, never returns. What holds: while the network is started and not stopped every call returns exactly once, in order, fatal errors or not; none ever returns twice; stop() always returns: some thread it waits for can do a step towards its end, and no step of any thread takes it further away.)", "quantifier": "every number of workers, every history, every schedule", "why_tests_cant": "termination of stop() under any load and schedule is a liveness property", "anchors": ["include/salticidae/conn.h: ConnPool::start, ConnPool::stop_workers, Worker::start, Worker::stop, Worker::disp_stop, ConnPool::listen, ConnPool::connect_sync", "include/salticidae/event.h:ThreadCall::call", "include/salticidae/event.h:ThreadCall::~ThreadCall"]}
{"id": "C95", "title": "The event-driven queue is correct in the memory model of C++", "statement": "With the memory orders written in the code, and not only under sequential consistency: no data race on an element of an MPSCQueueEventDriven; once all calls of enqueue have returned and neither the handler runs nor will be called, the consumer has received every enqueued element exactly once, and the elements of one thread in the order of its calls.", "quantifier": "any number of producers, every interleaving, every value that the memory model allows a load to read, every place in the modification order that it allows a store to take, every size of a block", "why_tests_cant": "the hardware of the test machine (x86) shows few of the behaviours that the language allows, and a compiler may show more", "anchors": ["include/salticidae/queue.h:FreeList", "include/salticidae/queue.h:MPMCQueue::_enqueue", "include/salticidae/queue.h:MPSCQueue::try_dequeue", "include/salticidae/event.h:MPSCQueueEventDriven"]}
{"id": "C96", "title": "No data race on the state of a connection", "statement": "The threads of the network (dispatcher, workers), the user's loop, and the program, which terminates, queries and stops, work on the same connections without a data race: any two accesses to the same part of a connection, one of them a write, are ordered by happens-before. Accessors (get_addr, get_mode, get_pool, get_peer_cert, operator std::string) may be called by the program on connections it was given. (Violated: a connection that is terminated while its attempt is in progress, and whose attempt then succeeds, is set up by a worker and torn down by the dispatcher at the same time; and with TLS the certificate of a connection returned by connect_sync may be read while the worker stores it. Both are the only cases; a program that only accepts connections has no race at all.)", "quantifier": "every number of workers, with and without TLS, every history of accepted and initiated connections, events, terminations, callbacks and stop, every schedule", "why_tests_cant": "a data race seldom shows, and never on demand; the absence of one is a statement on all schedules", "anchors": ["include/salticidae/conn.h: ConnPool::Conn, ConnPool::Worker::feed, ConnPool::update_conn, ConnPool::on_worker_teardown, ConnPool::stop_workers, ConnPool::connect_sync, ConnPool::Conn::get_peer_cert", "src/conn.cpp: ConnPool::worker_terminate, ConnPool::disp_terminate, ConnPool::conn_server, ConnPool::del_conn, ConnPool::Conn::_recv_data_tls_handshake"]}
{"id": "C97", "title": "Sending to a peer or a client while connections come and go", "statement": "send_msg to a peer, or to a client, called on the user's thread (or on several) while the network runs, uses the connection that this peer or client has when the call looks it up, and never uses memory that has been freed. (Violated: the lock that send_msg takes is also only taken shared by the dispatcher when it replaces the connection of a peer at the end of a handshake, so the call may take a reference to a connection that has just been deleted, or write to the old connection holding a reference to the new one; the table of clients is not locked at all. What holds: adding and deleting peers is safe against any number of senders; replacing a connection is as long as no call is between its lookup and its reference; sends made by the dispatcher, send_msg_deferred and multicast_msg, always are.)", "quantifier": "any number of sending threads, every interleaving of their steps with those of the dispatcher", "why_tests_cant": "a window of a few instructions; what a use of freed memory does is up to chance", "anchors": ["include/salticidae/network.h: PeerNetwork::_send_msg, PeerNetwork::_get_peer_conn, PeerNetwork::finish_handshake, PeerNetwork::ping_handler, PeerNetwork::pong_handler, PeerNetwork::add_peer, PeerNetwork::del_peer, ClientNetwork::_send_msg, ClientNetwork::on_dispatcher_setup, ClientNetwork::on_dispatcher_teardown", "include/salticidae/ref.h: _RcObjBase"]}
{"id": "C98", "title": "Typed messages reach the handlers", "statement": "In any system of nodes and connections, what the handlers of a node are given from a connection is, in order, a beginning of the typed messages for which send_msg returned true at the other end: each once, given to the handler registered last for its opcode, parsed to the value that was sent. When nothing is left in buffers, sockets and queues and the connection has not been terminated, it is all of them.", "quantifier": "all numbers of nodes and connections, registrations, message types that read what they write, message lengths within the receiver's limit, chunkings by TCP, receive buffer sizes, refusals by the queue, interleavings of senders, workers and loops", "why_tests_cant": "Tests send a few messages over one idle connection; the property is about every interleaving of many layers (serialisation, segmentation, back-pressure, a queue shared by all workers, batches of the loop).", "anchors": ["include/salticidae/network.h:reg_handler, set_handler, send_msg, on_read", "include/salticidae/conn.h:write", "src/conn.cpp:_recv_data, _send_data", "include/salticidae/event.h:MPSCQueueEventDriven", "include/salticidae/msg.h:MsgBase"]}
{"id": "C99", "title": "Objects of the C interface are values", "statement": "A C program that works with streams, byte arrays, hash values, messages, addresses, peer ids and lists of them through the C functions sees values: every call reads or changes only the objects it is given (a copy is independent of its source; an object that was moved can only be freed), returns what it has to, never ends the program or touches freed memory, and when the program has freed everything it was given no memory is left allocated.", "quantifier": "all programs (sequences of calls) that use only pointers they were given and have not freed, all byte contents, hash functions, allocators (addresses, when a vector moves), byte orders", "why_tests_cant": "Tests call a few functions in the expected order; aliasing, double frees and leaks show up only for particular orders of moves, copies, reads and frees.", "anchors": ["src/stream.cpp", "src/msg.cpp", "src/type.cpp", "src/netaddr.cpp", "src/network.cpp:peerid_new_*", "include/salticidae/stream.h:DataStream", "include/salticidae/msg.h:MsgBase::get_payload, set_payload"]}
{"id": "C100", "title": "Keys, certificates and TLS objects leave nothing behind", "statement": "A program that creates keys and certificates (generated, from PEM files with or without password, from DER, from the peer of a session), contexts and sessions, converts, saves, moves and destroys them, through C++ or C, owns exactly the OpenSSL objects inside its own objects: every operation either succeeds or throws, as the file system and OpenSSL decide; when everything is destroyed no OpenSSL object and no file is left open, nothing is freed twice, and no buffer with a secret is released without having been overwritten. (Violated: several error paths leak the file, the key or the session, leave a password in memory, or are undefined.)", "quantifier": "all sequences of operations and moves, all outcomes of opening, parsing, decrypting, generating, writing", "why_tests_cant": "Leaks, double frees and forgotten wiping on error paths do not change what a test observes; the error paths depend on the file system and OpenSSL", "anchors": ["include/salticidae/crypto.h: PKey, X509, TLSContext, TLS, _tls_pem_with_passwd", "src/crypto.cpp"]}
{"id": "C101", "title": "Networks get the configuration the program built", "statement": "A network constructed from a configuration has, for every option of its kind, the value of the last setting the program made on that configuration (or the standard value if there was none), however the settings were written: as a chain, one by one on a variable, through copies, conversions and assignments, or through the C functions; with TLS on, its certificate, key and verification are those that were set, or the constructor throws. (Violated: a setter of a base class returns the base class, and converting that back resets the options of the derived class, as in test_p2p_stress.cpp where ping_period and conn_timeout are lost; tls_skip_ca_check(&flag) ignores the value of the flag; msg_magic returns nothing.)", "quantifier": "all programs of declarations, setter chains, conversions, assignments and constructions that compile; all values; all contents of certificate and key files", "why_tests_cant": "A value that falls back to its default compiles, runs and shows only when the limit or the timeout matters; there are as many ways to write a configuration as programs", "anchors": ["include/salticidae/conn.h: ConnPool::Config, ConnPool::ConnPool", "include/salticidae/network.h: MsgNetwork::Config, PeerNetwork::Config", "src/network.cpp: msgnetwork_config_*, peernetwork_config_*", "test/test_p2p_stress.cpp"]}
{"id": "C102", "title": "Message statistics", "statement": "The statistics of a connection are right: get_nsent and get_nsentb tell number and payload bytes of the messages that send_msg has accepted since the last clear_msgstat, get_nrecv and get_nrecvb those that have been given to handlers; so, when nothing is on the way, what one end has counted as received is what the other has counted as sent. (Violated: a message that send_msg refuses is counted as sent; a clear_msgstat that runs while a message is being sent may fall between the two counters, which then never agree. What holds: between two quiet moments without clear_msgstat the counters grow by exactly the calls of send_msg and of handlers; an end never counts more received than the other counts sent.)", "quantifier": "all systems, message types, sizes and interleavings of senders, workers, loops and calls of clear_msgstat", "why_tests_cant": "The counters are shared by threads; a wrong count after a rare refusal or an unlucky clear_msgstat is not an error any test sees", "anchors": ["include/salticidae/network.h: MsgNetwork::Conn::get_nsent, get_nrecv, get_nsentb, get_nrecvb, clear_msgstat, MsgNetwork::MsgNetwork, MsgNetwork::_send_msg"]}
{"id": "C103", "title": "Streams are values; objects survive conversion to bytes and text", "statement": "In a program with any number of DataStream variables each variable behaves as a queue of bytes of its own: copying and assigning copy the unread bytes and share nothing afterwards, moving and swapping hand them over, writing appends, reading takes from the front or fails without effect, and size, the conversions to bytes and strings, get_hex and get_hash show exactly the unread bytes. No such program reaches undefined behaviour. An object whose serialize and unserialize fit together is recovered from to_bytes by from_bytes and from to_hex by from_hex. (Violated: the conversion of an rvalue stream shows bytes already read; a failed get_data_inplace and a move leave the read position past the end, so size() is huge and conversions are undefined; appending a stream to itself may read freed memory; malformed hex text is accepted.)", "quantifier": "all programs of any length over any number of stream variables, all contents, both byte orders, all choices of the vector about reallocation; all serializable classes and all field values", "why_tests_cant": "aliasing and moved-from states only show in particular orders of operations; tests exercise one stream at a time and never a program of arbitrary shape", "anchors": ["include/salticidae/stream.h: DataStream constructors, operator=, swap, clear, size, data, put_data, get_data_inplace, operator<<, operator>>, get_hex, load_hex, operator bytearray_t, get_hash; Serializable::from_bytes, from_hex, to_bytes, to_hex; get_hash, get_hex, from_hex"]}
{"id": "C104", "title": "What is logged is in the log", "statement": "Every call of info, debug, warning or error of a Logger appends exactly one complete line to the logger's file or descriptor: the time of the call, the prefix, the kind and the formatted text, in color exactly on a terminal. What was in the file before stays, loggers in several threads do not disturb each other, and copies and destruction of loggers do not affect others. (Violated: a file opened again is overwritten from its beginning, and two loggers on one file overwrite each other; destroying a copy closes the original's descriptor; a short write loses the rest of the line; localtime's shared buffer lets another thread change the time of a line; texts of 1024 characters or more lose their last character.)", "quantifier": "all programs of any number of threads and loggers, all texts and times, all results of open and write, all interleavings", "why_tests_cant": "whether a line is lost or garbled depends on reuse of descriptors, on what the kernel takes and on the interleaving of threads; no test looks at the log", "anchors": ["include/salticidae/util.h: Logger", "src/util.cpp: Logger::write, Logger::set_color, Logger::info, Logger::debug, Logger::warning, Logger::error, get_current_datetime, vstringprintf"]}
{"id": "C105", "title": "Queue operations return", "statement": "An operation of MPSCQueue or MPMCQueue (enqueue, try_enqueue, try_dequeue, rewind, a round of set_capacity) returns if, from some moment on, no other operation on the queue is in progress, whatever was going on before and wherever in its work the operation was then.", "quantifier": "Every history of every number of threads on a queue of any block size, with the operation left in progress at any of its steps, and all others finished.", "why_tests_cant": "The operations loop until compare-exchanges succeed and until flags are set that another thread should have set; whether the state left by every earlier interleaving lets them end is a statement about infinitely many histories, and a hang shows up only in schedules tests do not hit.", "anchors": ["include/salticidae/queue.h:MPMCQueue::_enqueue", "include/salticidae/queue.h:MPMCQueue::try_dequeue", "include/salticidae/queue.h:MPSCQueue::try_dequeue", "include/salticidae/queue.h:MPSCQueue::rewind", "include/salticidae/queue.h:MPMCQueue::set_capacity", "include/salticidae/queue.h:FreeList"]}
{"id": "C106", "title": "A connection knows its peer", "statement": "get_peer_id() and get_peer_addr() of a connection handle may be called at any time while the network exists. The connection that get_peer_conn(pid) returns answers pid and the address last set for it, and a connection that answers pid is the one that get_peer_conn(pid) returns, so the answer can be used to tell who is at the other end; any other connection answers the null values.", "quantifier": "every history of add_peer, del_peer, set_peer_addr, conn_peer, connections, handshakes, losses and timers, every connection of the network and every identity mode", "why_tests_cant": "The answer follows a pointer that is set and cleared in many places; which of them have run, and whether the peer still exists, depends on the order of dials, crossing handshakes, losses and deletions.", "anchors": ["include/salticidae/network.h:PeerNetwork::Conn::get_peer_addr", "include/salticidae/network.h:PeerNetwork::Conn::get_peer_id", "include/salticidae/network.h:finish_handshake", "include/salticidae/network.h:start_active_conn", "include/salticidae/network.h:del_peer", "src/network.cpp:peernetwork_conn_get_peer_id"]}
{"id": "C107", "title": "Handlers run between the connected and the disconnected callback", "statement": "A message handler is called for a connection only after the connection callback was told that this connection is connected and before it is told that it is gone; with TLS, only if the callback accepted it. So a program may set up what belongs to a connection in the one callback and drop it in the other.", "quantifier": "every schedule of the dispatcher, the workers and the user's thread, every number of connections and of messages per read, a queue of messages that is full at any time, and terminations asked for by anybody at any time", "why_tests_cant": "The callback and the handlers reach the user's thread through two different queues; which is served first depends on the event loop and on when the worker, the dispatcher and the user's thread ran.", "anchors": ["include/salticidae/conn.h:update_conn", "include/salticidae/network.h:MsgNetwork::MsgNetwork", "include/salticidae/network.h:MsgNetwork::on_read", "include/salticidae/network.h:MsgNetwork::on_worker_setup", "include/salticidae/network.h:MsgNetwork::on_worker_teardown"]}
{"id": "C108", "title": "Timers and timeouts", "statement": "A timer added for t seconds calls its callback, and a TimedFdEvent reports TIMEOUT, not before t seconds have passed since it was added or last reported something about its descriptor, and the TimedFdEvent only if the descriptor has not become ready meanwhile; no waiting timer is passed over when the loop runs timers after that. Nothing is reported by an object that has been stopped or has timed out until it is added again, and of the descriptor only what was asked for. Adding is defined for every time.", "quantifier": "every number of timers and TimedFdEvents, every order of adding, stopping and clearing them from callbacks or elsewhere, every passing of time, every time of descriptors becoming ready or failing, every time given as a rational number with any monotone rounding of the product", "why_tests_cant": "When a timer fires depends on how long callbacks run and when the loop reads the clock; a test sees a few timings of one loop.", "anchors": ["include/salticidae/event.h:TimerEvent::add", "include/salticidae/event.h:TimedFdEvent::add", "include/salticidae/event.h:TimedFdEvent::timer_then", "include/salticidae/event.h:TimedFdEvent::fd_then"]}
{"id": "C109", "title": "Connection objects live as long as they are needed and no longer", "statement": "A connection object (what a conn_t handle refers to) is never used by the library after it was destroyed, is destroyed at most once, and exists as long as its connection is open, as long as the program holds a handle, and as long as a message or a report about it is to be delivered. When its connection has been torn down, the program holds no handle and nothing about it waits, it has been destroyed (its memory and its receive buffer are not leaked); after the network has been destroyed only the program's handles keep connection objects alive.", "quantifier": "all message and client networks (with and without TLS, any number of workers), all sequences of accepts, connects, refusals, reads, full queues, errors, terminations, callbacks, handlers, copies and drops of handles, stop and destruction of the network, in every interleaving of the threads", "why_tests_cant": "The handles are captured by closures and by the callbacks of events owned by the connection itself; whether all of them are removed depends on the order in which dispatcher, workers and the user's thread run, and a leak shows no effect in a test.", "anchors": ["include/salticidae/conn.h: ConnPool::Conn, on_worker_setup, on_worker_teardown, stop_workers, terminate", "include/salticidae/network.h: MsgNetwork::on_worker_setup, on_worker_teardown, ClientNetwork::on_dispatcher_setup, on_dispatcher_teardown", "src/conn.cpp: ConnPool::_connect, release_conn, worker_feed"]}
{"id": "C110", "title": "The descriptor that wakes consumers is readable exactly while a notification is outstanding", "statement": "After any history of notifications and resets by any threads, on Linux and on macOS, a queue's wake-up descriptor is readable exactly if somebody has notified since the last reset; a reset says whether there was a notification, and one of several consumers gets it; a notification never waits; the descriptors stay those that were opened, are closed with the object, and none is left open by a constructor that throws; memory is accessed only within the object's arrays. With C enqueues going on at a time and k consumers at most C+2k+1 notifications are outstanding, so a pipe of that size never makes an enqueue wait, and with the pipe too no element is left unnoticed.", "quantifier": "all histories of notify and reset (as system calls), all descriptor numbers and pipe sizes, all schedules of any number of producers and consumers", "why_tests_cant": "Tests on one platform do not run the other variant, do not fill a pipe or a 64-bit counter, and try few schedules; that the pipe variant overwrites its own descriptors goes unnoticed in any test that passes.", "anchors": ["include/salticidae/event.h: NotifyFd (549-596), MPSCQueueEventDriven, MPMCQueueEventDriven", "src/event.cpp:6"]}
{"id": "C111", "title": "A connection the user opens on a peer network is a plain connection", "statement": "On a PeerNetwork, a connection that the user opens with connect(addr) never becomes a peer's connection: get_peer_conn gives it for no peer, and no peer callback reports it, on the node that dials and on the node that is dialled; and the handshake message that is sent over it (with the number 0) does not make the other node close it.", "quantifier": "all histories of both the peer network and the user's own connections, all peers, addresses, certificates and handshake messages", "why_tests_cant": "Whether the user's connection is confused with a peer's depends on which peers are known and in what state they are when the handshake messages are handled; tests try one history.", "anchors": ["include/salticidae/network.h: PeerNetwork::on_dispatcher_setup (785-814), on_dispatcher_teardown (817-835), ping_handler (996-1072), pong_handler (1078-1152)", "include/salticidae/network.h: PeerNetwork::connect, unknown_peer callback"]}
{"id": "C112", "title": "Connections time out when idle, and only then", "statement": "On a PeerNetwork with conn_timeout T, the library closes a connection for its timeout only when nothing has arrived over it for T; and a connection that is not reported as connected to a peer is closed within T (and the delays of the event loops) after it was made.", "quantifier": "all histories of the network with the times of their events, all connections, all timeouts and delays of the loops up to a bound", "why_tests_cant": "When a timer fires depends on when the calls that restart it, posted from another thread, are executed; a test waits for a few timeouts of a few connections.", "anchors": ["include/salticidae/network.h: PeerNetwork::tcall_reset_timeout (743-753), on_worker_setup (756-772), on_worker_teardown (774-778), on_dispatcher_setup (785-814), Peer::send_ping (889-895)", "include/salticidae/event.h: TimerEvent"]}
{"id": "C113", "title": "A PeerNetwork lets go of the connections that are gone", "statement": "However many connections a PeerNetwork has made and lost, of those that have been torn down its tables still hold only the one that get_peer_conn() gives for each peer; so the memory they take is bounded by the number of peers.", "quantifier": "all histories of a node: additions and deletions of peers, dials, connections from outside, handshakes won and lost, teardowns", "why_tests_cant": "A leak of closed connections shows only after long histories, and only when handshakes fail in particular ways.", "anchors": ["include/salticidae/network.h: Peer::conn, chosen_conn, inbound_conn, outbound_conn (433-444), pending_peers, known_peers (496-500)", "include/salticidae/network.h: PeerNetwork::on_dispatcher_teardown (817-879), finish_handshake (908-953), ping_handler (996-1072), del_peer (1258-1275)"]}
{"id": "C114", "title": "One certificate for several networks", "statement": "The certificate given to a Config may be used for any number of networks made from it or from copies of it: it is destroyed exactly once, when the last of these Configs and networks is gone, and never used after that, whichever threads make the networks, have them listen and destroy them.", "quantifier": "all programs with any number of threads, Configs and networks, and all interleavings of their loads and stores", "why_tests_cant": "A lost update of a reference count needs two threads within a few instructions of each other, and shows only when the last owners are gone.", "anchors": ["include/salticidae/conn.h: Config::tls_cert (399, 465-468), ConnPool::tls_cert (156), ConnPool::ConnPool (495-505)", "include/salticidae/network.h: PeerNetwork::listen (1156-1164)", "include/salticidae/ref.h: _RCCtl (157-176), RcObj"]}
{"id": "C115", "title": "A peer that answers keeps its connection", "statement": "When conn_timeout is longer than the longest ping interval (1.5 times ping_period) and than the time R within which a peer completes its handshake and answers each heartbeat, by the delays of the event loops, the library never closes the connection of that peer for its timeout.", "quantifier": "all histories of a PeerNetwork with the times of their events, all drawn ping intervals, all peers and connections, all delays of the loops up to a bound", "why_tests_cant": "Whether a restart of the timer always comes in time depends on two timers, the answers and two threads, in every round of an unbounded history.", "anchors": ["include/salticidae/network.h: Peer::reset_ping_timer, send_ping, ping_timer (882-905), pong_handler (1131-1147), finish_handshake (908-953), tcall_reset_timeout (743-753)", "src/util.cpp: gen_rand_timeout (109-111)"]}
{"id": "C116", "title": "Connection handles of the C interface", "statement": "A program of the C interface that uses only connection handles it was given (by connect_sync, a copy or conversion, or a copy of the handle a callback is called with) and has not freed never touches a destroyed connection, neither while the network runs nor after it was stopped or freed. A handle stays usable for the same connection until it is freed, freeing it affects no other handle, and when all handles of a connection and the network are freed, the connection is destroyed (apart from the race of C109).", "quantifier": "all programs of calls on handles, all allocators, all histories of the network and its peers", "why_tests_cant": "Whether a handle still refers to a live object depends on the order of the frees relative to teardown, stop and the callbacks still queued; a use after free often goes unnoticed in a test.", "anchors": ["src/network.cpp: msgnetwork_connect_sync (91-96), msgnetwork_conn_copy (102-104), msgnetwork_conn_free (107), msgnetwork_terminate (119-121), msgnetwork_reg_handler (123-131), msgnetwork_reg_conn_handler (133-140), msgnetwork_conn_get_* (158-176)", "src/network.cpp: msgnetwork_conn_new_from_clientnetwork_conn, clientnetwork_conn_new_from_msgnetwork_conn_unsafe, clientnetwork_conn_copy, clientnetwork_conn_free (352-364)"]}
{"id": "C117", "title": "Connections and fatal errors", "statement": "Every connection that the network accepts or makes is reported to the connection callback (connected, or disconnected if it could not be set up) once the threads have done what there was to do, unless its attempt or its TLS handshake is not finished. (Violated after a fatal error: the network goes on to accept clients, of which the program never hears, from which nothing is read and which are not closed; nor is any connection closed any more that the program terminates. What holds in spite of fatal errors: no connection is torn down or closed twice, and stop() closes every one that is not.)", "quantifier": "all sequences of events, of calls of the program, of callbacks, of connections and of fatal errors, with and without TLS, with any number of workers", "why_tests_cant": "the state after a fatal error is one the library hardly ever reaches; what is lost is lost for all connections accepted later, and only if the program does not stop the network at once", "anchors": ["include/salticidae/conn.h:519-533 disp_error_cb, worker_error_cb", "include/salticidae/event.h:753-760 ThreadCall", "src/conn.cpp:300-341 accept_client", "include/salticidae/conn.h:558-579 stop_workers"]}
{"id": "C118", "title": "Attempts to connect to a peer that fail", "statement": "An attempt of a PeerNetwork to connect to a peer harms nothing, whatever its outcome: there is no fatal error, the network goes on, the other peers are not affected, and as long as attempts are left the next one is planned. (Violated when the system gives no socket for the attempt, e.g. because the process has no file descriptor left for a moment: the whole network is dead from then on, no peer is connected or reported lost any more, and the timer of this one is never started again.)", "quantifier": "all histories of a PeerNetwork, all peers, all points at which an attempt fails", "why_tests_cant": "the failure is one of the system and lasts a moment; its consequence is for all peers and lasts for ever", "anchors": ["include/salticidae/network.h:1207-1213 the retry timer", "include/salticidae/network.h:971-981 start_active_conn", "src/conn.cpp:392-402 _connect", "include/salticidae/conn.h:519-526 disp_error_cb"]}
{"id": "C119", "title": "A peer is who holds its certificate", "statement": "On a PeerNetwork that identifies peers by their certificates: the connection that get_peer_conn(pid) gives, and over which messages to pid are sent, has always one at the other end who has shown the certificate of pid in its TLS handshake (or has never been open), and the peer callback is told 'connected' only for such connections, of members. Whatever a node claims in its messages makes no difference.", "quantifier": "all histories of a PeerNetwork with TLS and certificate identities: all members, dials, answers, claimed addresses, nonces, takeovers, teardowns", "why_tests_cant": "an attacker chooses messages and moments; a test cannot try them all", "anchors": ["include/salticidae/network.h:540-554 get_peer_id", "include/salticidae/network.h:784-814 on_dispatcher_setup", "include/salticidae/network.h:907-953 finish_handshake", "include/salticidae/network.h:995-1152 ping_handler, pong_handler", "include/salticidae/network.h:1280-1291 get_peer_conn"]}
{"id": "C120", "title": "The connection of a message tells who has sent it", "statement": "On a PeerNetwork that identifies peers by their certificates, a connection that is in use and whose get_peer_id() is pid has one at the other end who has shown the certificate of pid; so a handler may ask the connection of a message for the sender. (Violated: a connection that the node has dialled says that it is the dialled peer's from the beginning. A member that answers at the address of another one, with its own certificate, is not turned away; as long as it does not complete the handshake its messages are attributed to the other member. What holds: it is so for all connections that came from outside and all that were reported as connected.)", "quantifier": "all histories of a PeerNetwork with TLS and certificate identities", "why_tests_cant": "one member has to answer in place of another and to leave the handshake unfinished", "anchors": ["include/salticidae/network.h:376-390 get_peer_addr, get_peer_id", "include/salticidae/network.h:971-981 start_active_conn", "include/salticidae/network.h:784-814 on_dispatcher_setup"]}
{"id": "C121", "title": "The handlers of a PeerNetwork are given the messages of peers", "statement": "A message handler of a PeerNetwork is called only with messages that came over a connection which the peer callback was told to be connected. (Violated: whoever can connect, without being a member and without any handshake, can send messages to all handlers until the connection times out. What a program can do when peers are identified by certificates: take a message only if get_peer_conn() of some member gives its connection; then the sender has shown that member's certificate.)", "quantifier": "all histories of a PeerNetwork, all senders and numbers of messages", "why_tests_cant": "tests connect members only", "anchors": ["include/salticidae/network.h:201-228 the consumer of incoming_msgs", "include/salticidae/network.h:649-699 on_read", "include/salticidae/network.h:608-609 handlers of PeerNetwork", "include/salticidae/network.h:1280-1291 get_peer_conn"]}
{"id": "C122", "title": "Others cannot make the node drop a peer", "statement": "When peers are identified by certificates, the node closes the connection of a connected peer only for a reason that has to do with that peer: the user deletes it or dials it again, or somebody with the peer's certificate makes a handshake. Nothing that others send, answer or dial, no connection from the same address and no timer closes it. (Violated: if the address at which a member is dialled is answered by another member, the retry timer of the first and its deletion close the connection of the second. Proved when dials are answered by those who were dialled.)", "quantifier": "all histories of a PeerNetwork with certificates, all steps that can follow", "why_tests_cant": "tests have no hostile or misconfigured nodes", "anchors": ["include/salticidae/network.h:996-1072 ping_handler", "include/salticidae/network.h:1078-1152 pong_handler", "include/salticidae/network.h:956-981 replace_pending_conn, start_active_conn", "include/salticidae/network.h:1207-1213 the retry timer", "include/salticidae/network.h:1258-1275 del_peer"]}
{"id": "C123", "title": "Room for messages to a peer that is not connected yet", "statement": "With max_send_buff_size = c > 0, a connection (so a known peer, connected or not) accepts c messages before a send is refused; with c = 0 none is refused. (Violated: the connection object a peer has before its first connection is never told its capacity and takes 4096 messages, however large c is. Proved for connections that were opened or accepted, and for c up to 4096; and the bound of 4096 under every interleaving.)", "quantifier": "all limits, ways a connection object comes about, numbers of callers and histories of sends, one after the other (the bound: all interleavings)", "why_tests_cant": "tests do not send thousands of messages before a peer connects", "anchors": ["include/salticidae/network.h:1168-1188 add_peer", "include/salticidae/conn.h:145-147 write", "src/conn.cpp:323", "src/conn.cpp:405", "include/salticidae/queue.h:186-190 set_capacity"]}
{"id": "C124", "title": "Destroying a network", "statement": "When a network is destroyed, whatever its threads are doing, no part of it is used after it was destroyed; when the destructor returns none of its threads is running, and stop() and the destructor return once the threads have ended the jobs they had begun. (Violated for ClientNetwork: it has no destructor of its own, so its table of clients is destroyed before the threads are stopped. Proved for MsgNetwork and PeerNetwork, and for ClientNetwork when the program calls stop() first.)", "quantifier": "all kinds of network, numbers of workers, and interleavings of the threads with start, stop and the destructor", "why_tests_cant": "a destructor that races with the threads fails only in rare schedules", "anchors": ["include/salticidae/network.h:196 ~MsgNetwork", "include/salticidae/network.h:273-311 ClientNetwork", "include/salticidae/network.h:612 ~PeerNetwork", "include/salticidae/conn.h:544 ~ConnPool", "include/salticidae/conn.h:558-588 stop_workers, stop", "include/salticidae/network.h:1391-1400 _send_msg_deferred"]}
{"id": "C125", "title": "Measuring time", "statement": "ElapsedTime: after start() and stop(), elapsed_sec and cpu_elapsed_sec are the wall-clock time and the CPU time since the last start(), right to a millisecond (the precision in which stop(true) logs them), and not negative while the clocks do not go back. (Violated: the CPU times are subtracted as floats with 24 digits, so for a process that has used hours of CPU time, milliseconds are reported as 0, and any time is for one that has used enough. Proved for the wall clock, to 5 microseconds, until 2242; for processes that have used less than 35 minutes; and with a bound on the error for all.)", "quantifier": "all readings of the clocks and histories of start and stop, in the arithmetic of float and double", "why_tests_cant": "the error shows only in processes that have run for hours", "anchors": ["src/util.cpp:206-224 ElapsedTime::start, stop", "include/salticidae/util.h:243-251"]}
{"id": "C126", "title": "Key and certificate files", "statement": "Saving a private key or a certificate to a file either throws or leaves the whole object in it; if the program or the machine stops on the way, the file holds what it did before or what was saved. Loading gives an object exactly when the file holds it, not encrypted or encrypted with the password that is given, and throws otherwise. (Violated: a file that cannot be opened for writing is used as a null pointer; on a full disk saving returns although the file is cut short, because the bytes are written by fclose, which is not checked; the old file is emptied first; passwords are cut at a zero byte, and from 1024 bytes an exception goes through OpenSSL. Proved: when there is room, what is saved is what is loaded, and other files are not touched; a crash leaves the old file or a beginning of the new; loading is right for all other passwords.)", "quantifier": "all disks, keys, sizes of buffers, points of a crash, contents of files and passwords, for any PEM format in which what is written can be read", "why_tests_cant": "a full disk, a crash or a file that cannot be written is not part of a test, and no test covers all contents of a file", "anchors": ["include/salticidae/crypto.h:122-132 _tls_pem_no_passswd, _tls_pem_with_passwd", "include/salticidae/crypto.h:166-185 PKey::create_privkey_from_pem_file", "include/salticidae/crypto.h:217-223 PKey::save_privkey_to_file", "include/salticidae/crypto.h:254-272 X509::create_from_pem_file", "include/salticidae/crypto.h:301-307 X509::save_to_file"]}
{"id": "C127", "title": "Destroying a queue", "statement": "Once no operation is running on a queue, destroying it frees every block that was ever allocated for it exactly once, touches no freed memory, and ends, whatever was done with the queue before. (Violated: after an unbounded enqueue that was late to clear a block's mark, other producers hang their blocks on one that is not in the queue; these, with elements of enqueues that returned true, are never freed. Proved: it holds if no block is given back while the producer that linked it is still about to clear its mark; so with bounded enqueues, and with one producer.)", "quantifier": "all block sizes, histories of enqueues, dequeues, rewinds and set_capacity by any number of threads, in any interleaving with spurious failures of compare-exchanges, before the destruction and in it", "why_tests_cant": "a lost block is invisible to the program, and depends on the interleaving of the operations before; a test sees few of these", "anchors": ["include/salticidae/queue.h:177-184 MPMCQueue::~MPMCQueue", "include/salticidae/queue.h:14-88 FreeList", "include/salticidae/queue.h:111-165 MPMCQueue::_enqueue", "include/salticidae/queue.h:186-190 MPMCQueue::set_capacity", "include/salticidae/queue.h:244-289 MPSCQueue::try_dequeue, MPSCQueue::rewind"]}
{"id": "C128", "title": "Elements of a queue are handed over or destroyed, once", "statement": "Every element that is enqueued (or put back with rewind) is moved to exactly one caller of a dequeue, or is destroyed with the queue: no element is overwritten while it is in a slot, none is moved from twice or before it was put there, and when a queue that nobody uses any more is destroyed the elements destroyed with it are exactly those still in it.", "quantifier": "All block sizes, numbers of threads, sequences of operations and interleavings of their steps, all spurious failures in the destructor.", "why_tests_cant": "An overwritten element is a leak (or, for a handle, a connection that is never closed) that depends on one interleaving; tests compare the values that come out, not what the slots own.", "anchors": ["include/salticidae/queue.h:111-165 MPMCQueue::_enqueue", "include/salticidae/queue.h:203-232 MPMCQueue::try_dequeue", "include/salticidae/queue.h:244-289 MPSCQueue::try_dequeue, MPSCQueue::rewind", "include/salticidae/queue.h:177-184 MPMCQueue::~MPMCQueue"]}
{"id": "C129", "title": "Self-signed certificates", "statement": "X509::create_self_signed_from_pubkey, for every key, country and common name, either throws or gives a certificate for this key, signed with it, with these names, that is in force once it is there; certificates with the same issuer have different serial numbers. (Violated: notBefore and notAfter are both the time of creation, so that no such certificate is ever in force and every context that checks certificates refuses it; a country that is not a code of two characters, or a common name that is empty or longer than 64 characters, is left out without an error; from a key without private part one gets a certificate without signature; the serial number is always 1. A certificate made again for the same key has other bytes, so a node is another peer.)", "quantifier": "All keys, names, and readings of the clock.", "why_tests_cant": "A test makes one certificate, with default names and a network that skips the check; the dates and what OpenSSL refuses do not show.", "anchors": ["include/salticidae/crypto.h:236-252 X509::create_self_signed_from_pubkey", "include/salticidae/crypto.h:283-288 X509::get_pubkey", "include/salticidae/crypto.h:348-351 TLSContext::set_verify"]}
{"id": "C130", "title": "Keys and certificates as bytes", "statement": "PKey::create_privkey_from_der and X509::create_from_der give an object exactly for the byte array that get_privkey_der or get_der gives for it, and throw for all others. (Violated: the empty byte array is undefined behaviour, and bytes after the object are ignored.)", "quantifier": "All objects, all byte arrays, everything OpenSSL may write for an object.", "why_tests_cant": "The byte arrays that a test tries are few, and those one gets from an object are all well-formed.", "anchors": ["include/salticidae/crypto.h:186-193 PKey::create_privkey_from_der", "include/salticidae/crypto.h:206-215 PKey::get_privkey_der", "include/salticidae/crypto.h:274-281 X509::create_from_der", "include/salticidae/crypto.h:290-299 X509::get_der"]}
{"id": "C131", "title": "Command lines mean what is written", "statement": "A command line made of long options (--name=value, --name value, --name), short options (-cvalue, -c value, several flags in one argument), other arguments and a final -- makes exactly the assignments that are written, in their order (after those of the configuration file), and the index that Config::parse returns is where the other arguments are left, in their order.  Refuted in full: a short name '?' can be given only as an error, a short name that is also the long name of another option makes parse use a null pointer, and a second call in the same process ignores its arguments because getopt's position is not reset.", "quantifier": "every set of registered options, every sequence of options and arguments in any of their spellings, every environment of configuration files", "why_tests_cant": "The arguments are arbitrary strings (values that look like options, contain = or are empty) mixed in any order; tests try a few.", "anchors": ["src/util.cpp:Config::parse", "src/util.cpp:Config::Opt::Opt", "src/util.cpp:Config::add_opt"]}
{"id": "C132", "title": "The help lists every option", "statement": "Config::print_help writes one line for each registered option, in the order of registration, from which its name, short name and description can be read back; short names stand in one column.  Descriptions stand in one column (with tab stops every 8) exactly when all options have short names, or none, or the longest name has a length of 6 or 7 modulo 8; in general they do not.", "quantifier": "every list of options whose names and descriptions contain no control characters", "why_tests_cant": "Alignment depends on the length of the longest name and on which options have short names.", "anchors": ["src/util.cpp:Config::print_help"]}
{"id": "C133", "title": "Integer options take integers", "statement": "Setting an integer option (from the command line or a file) to the decimal text of any value of an int stores that value, and any text that is not such a numeral is rejected with the error for invalid option values.  Refuted in full: text after the digits is ignored (80x is 80), and numbers out of range end in std::out_of_range, which is no SalticidaeError.  Exactly which texts are taken, with which value, and which error the others give is proved.", "quantifier": "every text without NUL characters, every value of an int", "why_tests_cant": "The texts are infinitely many; that every int is read back, and that exactly these texts are accepted, cannot be tested.", "anchors": ["include/salticidae/util.h:Config::OptValInt::set_val"]}
{"id": "C134", "title": "The time in a line of the log is the time", "statement": "The date and time at the beginning of each line of the log, read in the Gregorian calendar, are the local time of the call to the microsecond; two moments never have the same text and the later one has the later text.  Refuted in full where clocks are set back (the offset from UTC is not written); proved for every moment where the offset does not change, and, for any offset, that the text is the local time.", "quantifier": "every moment after 1970, every microsecond, every offset from UTC", "why_tests_cant": "There are too many moments; errors in calendars show on single days (end of February, of centuries).", "anchors": ["src/util.cpp:get_current_datetime", "src/util.cpp:Logger::write"]}
{"id": "C135", "title": "The text of an address says which address it is", "statement": "Converting an address to text gives <NetAddr a.b.c.d:port> with the four bytes and the port number in decimal, on hosts of either byte order; different addresses have different texts; and the constructor from text takes the text for the same address.  Refuted for the last part: the text is refused because of the characters around it; proved without them.", "quantifier": "every address, both byte orders, every resolver of names that takes addresses in numbers for what they are", "why_tests_cant": "There are 2^48 addresses; a swapped byte order shows only on hosts of the other kind or for ports that are not palindromes.", "anchors": ["include/salticidae/netaddr.h:NetAddr::operator std::string", "include/salticidae/netaddr.h:NetAddr::NetAddr"]}
{"id": "C136", "title": "Addresses of the C interface keep their port", "statement": "In the C interface, the port of an address made from a host name and a port number is that number; an address is determined by its two getters and can be made again from them; and naming host and port apart or in one text gives the same address.  Refuted for the first part: on little-endian hosts netaddr_get_port returns the bytes of the port swapped, exactly unless the two bytes are equal.", "quantifier": "every host name, port, resolver and byte order", "why_tests_cant": "A test with one port on one host sees neither the other byte order nor which ports come back unchanged.", "anchors": ["src/netaddr.cpp:netaddr_new_from_sip_port", "src/netaddr.cpp:netaddr_new_from_sipport", "src/netaddr.cpp:netaddr_new_from_ip_port", "src/netaddr.cpp:netaddr_get_port", "src/netaddr.cpp:netaddr_get_ip"]}
