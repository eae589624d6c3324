# Functions of /repo and the model definitions that cite them

Generated by `tools/coverage.py` from the comments of `lean/Verif/Model/*.lean`. Tests are left out.

| function | | model definitions, or why there is none |
|---|---|---|
| `src/bin/hfxidx.rs:13` | `main` | `Serde.Index.save`, `Tools.HfxIdx`, `Tools.hfxidxBytes`, `Tree.Index.saveTree` |
| `src/bin/hfxlst.rs:10` | `main` | `Tools.hfxlst` |
| `src/bin/hfxlst.rs:33` | `read_index` | `Serde.readIndex` |
| `src/bin/hfxlst.rs:53` | `read_flexbuffer` | `Tree.Index.ofTree` |
| `src/bin/hfxlst.rs:59` | `read_bincode` | `Serde.Index.load` |
| `src/extent.rs:54` | `from` | — the same conversion for a reference: clones and forwards |
| `src/extent.rs:62` | `try_from` | — the same conversion for a reference: clones and forwards |
| `src/extent.rs:70` | `from` | `Extent.Extent.ofExpr`, `Extent.RangeExpr` |
| `src/extent.rs:77` | `from` | `Extent.Extent.ofExpr`, `Extent.RangeExpr` |
| `src/extent.rs:84` | `from` | `Extent.Extent.ofExpr`, `Extent.RangeExpr` |
| `src/extent.rs:94` | `from` | `Extent.Extent.ofExpr`, `Extent.RangeExpr` |
| `src/extent.rs:104` | `from` | `Extent.Extent.ofExpr`, `Extent.RangeExpr` |
| `src/extent.rs:114` | `from` | `Extent.Extent.ofExpr`, `Extent.RangeExpr` |
| `src/extent.rs:124` | `from` | `Extent.Extent.ofExpr`, `Extent.RangeExpr` |
| `src/extent.rs:131` | `from` | `Extent.Extent.ofExpr`, `Extent.RangeExpr` |
| `src/extent.rs:178` | `from` | `Extent.Extents.ofExpr` |
| `src/extent.rs:184` | `from` | `Extent.Extents.ofExpr` |
| `src/extent.rs:190` | `from` | `Extent.Extents.ofExpr` |
| `src/extent.rs:196` | `from` | `Extent.Extents.ofExpr` |
| `src/extent.rs:204` | `from` | `Extent.Extents.ofExpr` |
| `src/extent.rs:210` | `from` | `Extent.Extents.ofExpr` |
| `src/extent.rs:218` | `try_from` | `Extent.Extents.ofExpr` |
| `src/extent.rs:224` | `try_from` | `Extent.Extents.ofExpr` |
| `src/extent.rs:241` | `from` | `Extent.Extents.convAll`, `Extent.Extents.ofExpr` |
| `src/extent.rs:246` | `from` | `Extent.Extents.ofExpr` |
| `src/extent.rs:252` | `from` | `Extent.Extents.ofExpr` |
| `src/extent.rs:257` | `from` | `Extent.Extents.ofExpr` |
| `src/extent.rs:267` | `try_from` | `Extent.Extents.convAll`, `Extent.Extents.ofExpr` |
| `src/extent.rs:281` | `try_from` | `Extent.Extents.ofExpr` |
| `src/extent.rs:288` | `try_from` | `Extent.Extents.ofExpr` |
| `src/extent.rs:294` | `try_from` | `Extent.Extents.ofExpr` |
| `src/extent.rs:325` | `try_from` | `Extent.Extents.convAll`, `Extent.Extents.ofExpr` |
| `src/extent.rs:338` | `from` | `Extent.Extents.ofExpr` |
| `src/extent.rs:345` | `start` | `Extent.Extent.start` |
| `src/extent.rs:354` | `count` | `Extent.Extent.count` |
| `src/extent.rs:364` | `canonicalise` | `Extent.Extent.canonicalise` |
| `src/extent.rs:388` | `next` | `Extent.Extents.canonicalise` |
| `src/extent.rs:399` | `next_back` | — not used in the crate |
| `src/extent.rs:414` | `canonicalise` | `Extent.Extents.canonicalise` |
| `src/extent.rs:433` | `get_counts` | `Extent.Extents.getCounts` |
| `src/extent.rs:440` | `get_start_count` | `Extent.Extents.getStartCount` |
| `src/extent.rs:447` | `get_start_count_sized` | `Extent.Extents.getStartCountSized` |
| `src/extent.rs:466` | `try_from` | `Extent.Extent.ofSliceInfo`, `Extent.Extents.ofSliceInfos` |
| `src/extent.rs:502` | `try_from` | — the same conversion for a reference: clones and forwards |
| `src/extent.rs:510` | `try_from` | `Extent.Extents.ofStartsCounts` |
| `src/extent.rs:529` | `try_from` | `Extent.Extents.ofStartsCounts` |
| `src/extent.rs:538` | `try_from` | `Extent.Extents.ofStartsCounts` |
| `src/extent.rs:545` | `try_from` | `Extent.Extents.ofStartsCounts` |
| `src/extent.rs:566` | `from` | — the same conversion for a reference: clones and forwards |
| `src/filters/byteorder.rs:11` | `native` | `Filters.Host.native` |
| `src/filters/byteorder.rs:21` | `from` | `Index.ByteOrder.ofH5` |
| `src/filters/byteorder.rs:34` | `to_native` | — trait declaration; the implementations are modelled |
| `src/filters/byteorder.rs:39` | `to_big_e` | — trait declaration; the implementations are modelled |
| `src/filters/byteorder.rs:43` | `swap` | — trait declaration; the implementations are modelled |
| `src/filters/byteorder.rs:47` | `swap` | `Filters.Prim`, `Filters.swapWord` |
| `src/filters/byteorder.rs:53` | `swap` | `Filters.Prim`, `Filters.swapWord` |
| `src/filters/byteorder.rs:59` | `swap` | `Filters.Prim`, `Filters.swapWord` |
| `src/filters/byteorder.rs:65` | `swap` | `Filters.Prim`, `Filters.swapWord` |
| `src/filters/byteorder.rs:71` | `swap` | `Filters.Prim`, `Filters.swapWord` |
| `src/filters/byteorder.rs:77` | `swap` | `Filters.Prim`, `Filters.swapWord` |
| `src/filters/byteorder.rs:83` | `swap` | `Filters.Prim`, `Filters.swapWord` |
| `src/filters/byteorder.rs:89` | `swap` | `Filters.Prim`, `Filters.swapWord` |
| `src/filters/byteorder.rs:95` | `swap` | `Filters.Prim`, `Filters.swapWord` |
| `src/filters/byteorder.rs:101` | `swap` | `Filters.Prim`, `Filters.swapWord` |
| `src/filters/byteorder.rs:110` | `to_native` | `Filters.toNativeOne` |
| `src/filters/byteorder.rs:131` | `to_native` | `Filters.toNativeSlice` |
| `src/filters/byteorder.rs:160` | `to_big_e` | `Filters.toBigEOne` |
| `src/filters/byteorder.rs:175` | `to_big_e` | `Filters.toBigESlice` |
| `src/filters/byteorder.rs:192` | `to_big_e_sized` | `Filters.toBigESized` |
| `src/filters/gzip.rs:5` | `decompress` | `Filters.decompress` |
| `src/filters/shuffle.rs:29` | `shuffle` | `Filters.copyByte`, `Filters.shuffle` |
| `src/filters/shuffle.rs:53` | `unshuffle` | `Filters.copyByte`, `Filters.unshuffle` |
| `src/filters/shuffle.rs:80` | `unshuffle_structured` | `Filters.copyByte`, `Filters.unshuffleStructured` |
| `src/filters/shuffle.rs:102` | `unshuffle_sized` | `Filters.unshuffleSized` |
| `src/filters/xdr.rs:6` | `xdr_factor` | `Filters.xdrCastSlice`, `Filters.xdrFactor` |
| `src/filters/xdr.rs:22` | `xdr_cast_slice` | `Filters.widen`, `Filters.xdrCastSlice`, `Filters.xdrWord` |
| `src/filters/xdr.rs:45` | `xdr` | `Filters.xdr` |
| `src/idx.rs:27` | `index` | — trait declaration / forwards to `TryFrom` (`Entry`) |
| `src/idx.rs:33` | `index` | `Entry.Index.tryFromH5` |
| `src/idx.rs:41` | `index` | — trait declaration / forwards to `TryFrom` (`Entry`) |
| `src/idx.rs:51` | `index` | `Entry.Index.tryFromNetcdf` |
| `src/idx/chunk.rs:31` | `new` | — constructor, a view of one field, `partial_cmp = Some(cmp)` |
| `src/idx/chunk.rs:46` | `offset_u64` | — constructor, a view of one field, `partial_cmp = Some(cmp)` |
| `src/idx/chunk.rs:58` | `contains` | `Chunk.Chunk.contains`, `Chunk.Chunk.containsAux` |
| `src/idx/chunk.rs:77` | `as_u64s` | `Chunk.Chunk.asU64s`, `Serde.Chunk.enc` |
| `src/idx/chunk.rs:96` | `from_u64s` | `Chunk.Chunk.fromU64s` |
| `src/idx/chunk.rs:107` | `slice_as_u64s` | `Chunk.Chunk.sliceAsU64s`, `Serde.encChunks` |
| `src/idx/chunk.rs:127` | `slice_from_u64s` | `Chunk.Chunk.sliceAux`, `Chunk.Chunk.sliceFromU64s`, `Serde.decChunks` |
| `src/idx/chunk.rs:147` | `hash` | `Chunk.Chunk.hashKey` |
| `src/idx/chunk.rs:153` | `cmp` | `Chunk.Chunk.cmp`, `Chunk.cmpOffsets` |
| `src/idx/chunk.rs:167` | `partial_cmp` | — constructor, a view of one field, `partial_cmp = Some(cmp)` |
| `src/idx/chunk.rs:173` | `eq` | `Chunk.Chunk.beq` |
| `src/idx/dataset/any.rs:33` | `index` | `Index.DatasetD.index` |
| `src/idx/dataset/any.rs:51` | `as_reader` | `Open.Dataset.asReader`, `Reader.CacheReader.readTo` |
| `src/idx/dataset/any.rs:70` | `as_streamer` | `Open.Dataset.asStreamer` |
| `src/idx/dataset/any.rs:88` | `inner` | — accessor: a field, or a forwarder to the method of the same name (trait declaration or `enum` dispatch) |
| `src/idx/dataset/any.rs:109` | `size` | — accessor: a field, or a forwarder to the method of the same name (trait declaration or `enum` dispatch) |
| `src/idx/dataset/any.rs:111` | `dtype` | — accessor: a field, or a forwarder to the method of the same name (trait declaration or `enum` dispatch) |
| `src/idx/dataset/any.rs:113` | `dsize` | — accessor: a field, or a forwarder to the method of the same name (trait declaration or `enum` dispatch) |
| `src/idx/dataset/any.rs:115` | `shape` | — accessor: a field, or a forwarder to the method of the same name (trait declaration or `enum` dispatch) |
| `src/idx/dataset/any.rs:117` | `chunk_shape` | — accessor: a field, or a forwarder to the method of the same name (trait declaration or `enum` dispatch) |
| `src/idx/dataset/any.rs:119` | `valid` | — accessor: a field, or a forwarder to the method of the same name (trait declaration or `enum` dispatch) |
| `src/idx/dataset/any.rs:121` | `as_par_reader` | — accessor: a field, or a forwarder to the method of the same name (trait declaration or `enum` dispatch) |
| `src/idx/dataset/any.rs:125` | `size` | — accessor: a field, or a forwarder to the method of the same name (trait declaration or `enum` dispatch) |
| `src/idx/dataset/any.rs:129` | `dtype` | — accessor: a field, or a forwarder to the method of the same name (trait declaration or `enum` dispatch) |
| `src/idx/dataset/any.rs:133` | `dsize` | — accessor: a field, or a forwarder to the method of the same name (trait declaration or `enum` dispatch) |
| `src/idx/dataset/any.rs:137` | `shape` | — accessor: a field, or a forwarder to the method of the same name (trait declaration or `enum` dispatch) |
| `src/idx/dataset/any.rs:141` | `chunk_shape` | — accessor: a field, or a forwarder to the method of the same name (trait declaration or `enum` dispatch) |
| `src/idx/dataset/any.rs:145` | `valid` | — accessor: a field, or a forwarder to the method of the same name (trait declaration or `enum` dispatch) |
| `src/idx/dataset/any.rs:149` | `as_par_reader` | — accessor: a field, or a forwarder to the method of the same name (trait declaration or `enum` dispatch) |
| `src/idx/dataset/dataset.rs:52` | `index` | `Dataset.divCeilAll`, `Index.Dataset.index`, `Index.H5Dataset`, `Index.expectedChunks`, `Index.h5ChunkShape`, `Index.h5Chunks` … |
| `src/idx/dataset/dataset.rs:167` | `new` | `Dataset.Dataset.new`, `Dataset.divCeilAll`, `Dataset.strengthReduce`, `Dataset.strideScan`, `Dataset.strides` |
| `src/idx/dataset/dataset.rs:263` | `size` | `Dataset.Dataset.size` |
| `src/idx/dataset/dataset.rs:268` | `is_scalar` | `Dataset.Dataset.isScalar` |
| `src/idx/dataset/dataset.rs:273` | `valid` | `Dataset.Dataset.valid`, `Dataset.Dataset.validAux` |
| `src/idx/dataset/dataset.rs:287` | `chunk_slices` | `Dataset.Dataset.chunkSlicer`, `Dataset.Dataset.chunkSlices`, `Dataset.exceeds` |
| `src/idx/dataset/dataset.rs:311` | `group_chunk_slices` | `Dataset.Dataset.groupUnsorted`, `Dataset.GItem`, `Dataset.SortedByAddr`, `Dataset.groupScan`, `Reader.Dataset.groupChunkSlices` |
| `src/idx/dataset/dataset.rs:358` | `chunk_at_coord` | `Dataset.Dataset.chunkAtCoord`, `Dataset.chunkIndexAux` |
| `src/idx/dataset/dataset.rs:375` | `size` | — accessor: a field, or a forwarder to the method of the same name (trait declaration or `enum` dispatch) |
| `src/idx/dataset/dataset.rs:379` | `dtype` | — accessor: a field, or a forwarder to the method of the same name (trait declaration or `enum` dispatch) |
| `src/idx/dataset/dataset.rs:383` | `dsize` | — accessor: a field, or a forwarder to the method of the same name (trait declaration or `enum` dispatch) |
| `src/idx/dataset/dataset.rs:387` | `shape` | — accessor: a field, or a forwarder to the method of the same name (trait declaration or `enum` dispatch) |
| `src/idx/dataset/dataset.rs:391` | `chunk_shape` | — accessor: a field, or a forwarder to the method of the same name (trait declaration or `enum` dispatch) |
| `src/idx/dataset/dataset.rs:395` | `valid` | — accessor: a field, or a forwarder to the method of the same name (trait declaration or `enum` dispatch) |
| `src/idx/dataset/dataset.rs:399` | `as_par_reader` | `Open.Dataset.asParReader` |
| `src/idx/dataset/dataset.rs:429` | `empty` | `Dataset.Slicer.empty` |
| `src/idx/dataset/dataset.rs:446` | `new` | `Dataset.Slicer.new`, `Dataset.strengthReduce` |
| `src/idx/dataset/dataset.rs:481` | `chunk_start` | `Dataset.chunkStartAux` |
| `src/idx/dataset/dataset.rs:498` | `next` | `Dataset.Lane`, `Dataset.Slicer.next`, `Dataset.addAll`, `Dataset.carryRest`, `Dataset.cutSize`, `Dataset.mkLanes` … |
| `src/idx/dataset/types.rs:12` | `dsize` | `Dataset.Datatype.dsize` |
| `src/idx/dataset/types.rs:22` | `from` | `Index.Datatype.ofH5` |
| `src/idx/index.rs:23` | `deref` | — accessor: a field, or a forwarder to the method of the same name (trait declaration or `enum` dispatch) |
| `src/idx/index.rs:31` | `index` | `Tools.Index.index` |
| `src/idx/index.rs:42` | `index_file` | `Index.Index.indexFile`, `Links.Index.indexLinks` |
| `src/idx/index.rs:57` | `try_from` | `Entry.Index.tryFromPath` |
| `src/idx/index.rs:65` | `try_from` | `Entry.Index.tryFromH5` |
| `src/idx/index.rs:76` | `try_from` | `Entry.Index.tryFromNetcdf` |
| `src/idx/index.rs:96` | `index_group` | `Index.H5Dataset.allocated`, `Index.H5Group`, `Index.indexDatasets`, `Index.indexGroup`, `Index.indexGroups`, `Index.lastPiece` … |
| `src/idx/index.rs:132` | `dataset` | `Index.GroupIndex.dataset`, `Index.GroupIndex.walk` |
| `src/idx/index.rs:139` | `datasets` | — accessor: a field, or a forwarder to the method of the same name (trait declaration or `enum` dispatch) |
| `src/idx/index.rs:144` | `path` | — accessor: a field, or a forwarder to the method of the same name (trait declaration or `enum` dispatch) |
| `src/idx/index.rs:149` | `group` | `Index.GroupIndex.group`, `Index.GroupIndex.walk` |
| `src/idx/index.rs:157` | `groups` | — accessor: a field, or a forwarder to the method of the same name (trait declaration or `enum` dispatch) |
| `src/idx/index.rs:171` | `reader` | `Open.GroupIndex.reader` |
| `src/idx/index.rs:187` | `streamer` | `Open.GroupIndex.streamer` |
| `src/idx/serde.rs:13` | `serialize` | `Serde.encArr`, `Tree.treeArr` |
| `src/idx/serde.rs:24` | `deserialize` | `Serde.decSr`, `Tree.ofTreeSr` |
| `src/idx/serde.rs:47` | `serialize` | `Serde.encArr`, `Tree.treeArr` |
| `src/idx/serde.rs:54` | `deserialize` | `Serde.decArr`, `Tree.ofTreeArr` |
| `src/idx/serde.rs:72` | `serialize` | `Serde.encChunks`, `Tree.treeChunks` |
| `src/idx/serde.rs:82` | `deserialize` | `Serde.decChunks`, `Tree.ofTreeChunks` |
| `src/python.rs:18` | `hidefix` | — printing; module set-up |
| `src/python.rs:32` | `new` | `Entry.Index.tryFromPath`, `XrOpen.xrOpen` |
| `src/python.rs:38` | `dataset` | `Python.pyDataset` |
| `src/python.rs:50` | `__getitem__` | — forwards to `dataset` |
| `src/python.rs:54` | `datasets` | `Python.pyDatasets` |
| `src/python.rs:64` | `__repr__` | — printing; module set-up |
| `src/python.rs:82` | `dataset` | `Python.pyHandle` |
| `src/python.rs:89` | `read_py_array` | `Python.pyGetItem`, `Python.pyShape` |
| `src/python.rs:127` | `read_ndarray` | — not called from anywhere |
| `src/python.rs:148` | `apply_fill_value_impl` | `Python.applyFillValue`, `Python.mapAt`, `Xarray.extractAs`, `Xarray.pyApplyFill` |
| `src/python.rs:173` | `__repr__` | — printing; module set-up |
| `src/python.rs:177` | `__len__` | `Entry.pyLen` |
| `src/python.rs:181` | `shape` | `Entry.pyShapeOf` |
| `src/python.rs:185` | `chunk_shape` | `Entry.pyChunkShape` |
| `src/python.rs:189` | `__getitem__` | `Python.pyDim`, `Python.pyDims`, `Python.pyGetItem`, `Python.pyPrim`, `Python.pySelect`, `Python.pySlice` |
| `src/python.rs:236` | `apply_fill_value` | `Xarray.pyApplyFill` |
| `src/reader/cache.rs:20` | `with_dataset` | `Reader.CacheReader.withDataset`, `Reader.cacheSz`, `Reader.chunkBytes`, `Reader.lruCap` |
| `src/reader/cache.rs:35` | `order` | — accessor: a field, or a forwarder to the method of the same name (trait declaration or `enum` dispatch) |
| `src/reader/cache.rs:39` | `dsize` | — accessor: a field, or a forwarder to the method of the same name (trait declaration or `enum` dispatch) |
| `src/reader/cache.rs:43` | `shape` | — accessor: a field, or a forwarder to the method of the same name (trait declaration or `enum` dispatch) |
| `src/reader/cache.rs:47` | `read_to` | `Fetches.CacheReader.fetches`, `Fetches.cacheFetch`, `Reader.CacheReader.readTo`, `Reader.cacheStep`, `Reader.reqBytes`, `Session.Handle.call` … |
| `src/reader/chunk.rs:4` | `read_chunk_to` | `Reader.readRaw`, `Unsteady.Disk` |
| `src/reader/chunk.rs:14` | `read_chunk` | `Reader.readChunk`, `Stream.readChunkTokio` |
| `src/reader/chunk.rs:38` | `decode_chunk` | `Filters.decodeChunk` |
| `src/reader/dataset.rs:12` | `read_to` | — trait declaration; the implementations are modelled |
| `src/reader/dataset.rs:15` | `order` | — accessor: a field, or a forwarder to the method of the same name (trait declaration or `enum` dispatch) |
| `src/reader/dataset.rs:18` | `dsize` | — accessor: a field, or a forwarder to the method of the same name (trait declaration or `enum` dispatch) |
| `src/reader/dataset.rs:21` | `shape` | — accessor: a field, or a forwarder to the method of the same name (trait declaration or `enum` dispatch) |
| `src/reader/dataset.rs:25` | `empty_vec` | `Values.valuesUnstable` |
| `src/reader/dataset.rs:35` | `empty_vec` | `Values.values` |
| `src/reader/dataset.rs:46` | `values_to` | `Values.valuesTo` |
| `src/reader/dataset.rs:61` | `values` | `Values.values` |
| `src/reader/dataset.rs:92` | `read_to_par` | — trait declaration; the implementations are modelled |
| `src/reader/dataset.rs:97` | `values_to_par` | `Values.valuesTo` |
| `src/reader/dataset.rs:112` | `values_par` | `Values.values` |
| `src/reader/dataset.rs:139` | `values_dyn_par` | `Values.valuesDynPar` |
| `src/reader/dataset.rs:174` | `stream` | — trait declaration; the implementations are modelled |
| `src/reader/dataset.rs:180` | `stream_xdr` | — trait declaration; the implementations are modelled |
| `src/reader/dataset.rs:186` | `order` | — accessor: a field, or a forwarder to the method of the same name (trait declaration or `enum` dispatch) |
| `src/reader/dataset.rs:189` | `dsize` | — accessor: a field, or a forwarder to the method of the same name (trait declaration or `enum` dispatch) |
| `src/reader/dataset.rs:194` | `stream_values` | `Stream.streamValues` |
| `src/reader/direct.rs:20` | `with_dataset` | `Open.Dataset.asParReader`, `Reader.chunkBytes`, `Reader.directReadTo` |
| `src/reader/direct.rs:35` | `read_to_par` | `Fetches.parFetches`, `Reader.DirectReadToPar`, `Reader.chunkBy`, `Reader.parGroup`, `Reader.parPrelude`, `Reader.parSegment` … |
| `src/reader/direct.rs:101` | `order` | — accessor: a field, or a forwarder to the method of the same name (trait declaration or `enum` dispatch) |
| `src/reader/direct.rs:105` | `dsize` | — accessor: a field, or a forwarder to the method of the same name (trait declaration or `enum` dispatch) |
| `src/reader/direct.rs:109` | `shape` | — accessor: a field, or a forwarder to the method of the same name (trait declaration or `enum` dispatch) |
| `src/reader/direct.rs:113` | `read_to` | `Fetches.directFetch`, `Fetches.directFetches`, `Reader.directChunk`, `Reader.directReadTo`, `Reader.directStep`, `Reader.reqBytes` … |
| `src/reader/s3.rs:73` | `group_requests` | `Fetches.s3Chunks`, `S3.coalesces`, `S3.groupRequests`, `S3.newRequest`, `S3.requestStep` |
| `src/reader/s3.rs:109` | `block_on` | `S3.Drive`, `S3.blockOnDrive` |
| `src/reader/s3.rs:133` | `with_dataset` | `Reader.chunkBytes`, `S3.s3Prelude` |
| `src/reader/s3.rs:151` | `read_to_async` | `Flight.FlightEnd`, `Flight.FlightSt`, `Flight.FlightStep`, `Flight.S3Call`, `Reader.reqBytes`, `S3.fetch` … |
| `src/reader/s3.rs:165` | `fetch` | `Flight.S3Call`, `S3.fetch`, `S3.s3ReadTo` |
| `src/reader/s3.rs:229` | `order` | — accessor: a field, or a forwarder to the method of the same name (trait declaration or `enum` dispatch) |
| `src/reader/s3.rs:233` | `dsize` | — accessor: a field, or a forwarder to the method of the same name (trait declaration or `enum` dispatch) |
| `src/reader/s3.rs:237` | `shape` | — accessor: a field, or a forwarder to the method of the same name (trait declaration or `enum` dispatch) |
| `src/reader/s3.rs:241` | `read_to` | `S3.blockOn` |
| `src/reader/stream.rs:29` | `with_dataset` | `Open.Dataset.asStreamer`, `Reader.chunkBytes`, `Stream.streamBytes` |
| `src/reader/stream.rs:44` | `dsize` | — accessor: a field, or a forwarder to the method of the same name (trait declaration or `enum` dispatch) |
| `src/reader/stream.rs:49` | `stream` | `Fetches.streamFetch`, `Fetches.streamFetches`, `Poll.Gen.poll`, `Poll.Gen.resume`, `Poll.streamItem`, `Poll.streamNew` … |
| `src/reader/stream.rs:96` | `stream_xdr` | `Fetches.streamFetch`, `Poll.Gen.poll`, `Poll.streamItem`, `Poll.streamXdrPolls`, `Reader.lruCap`, `Session.Call` … |
| `src/reader/stream.rs:150` | `order` | — accessor: a field, or a forwarder to the method of the same name (trait declaration or `enum` dispatch) |
| `python/hidefix/xarray.py:47` | `open_dataset` | `XrOpen.xrOpen` |
| `python/hidefix/xarray.py:78` | `guess_can_open` | `Entry.guessCanOpen` |
| `python/hidefix/xarray.py:92` | `__init__` | `XrOpen.xrOpen` |
| `python/hidefix/xarray.py:103` | `open` | `XrOpen.xrOpen` |
| `python/hidefix/xarray.py:117` | `get_attrs` | — plumbing of xarray and netCDF4 (attributes, dimensions, encodings), no hidefix call beyond `Index(path)` |
| `python/hidefix/xarray.py:120` | `get_dimensions` | — plumbing of xarray and netCDF4 (attributes, dimensions, encodings), no hidefix call beyond `Index(path)` |
| `python/hidefix/xarray.py:123` | `get_encoding` | — plumbing of xarray and netCDF4 (attributes, dimensions, encodings), no hidefix call beyond `Index(path)` |
| `python/hidefix/xarray.py:130` | `get_variables` | `Xarray.xrVariables`, `XrOpen.xrOpen` |
| `python/hidefix/xarray.py:134` | `open_store_variable` | `Xarray.xrVariables`, `XrOpen.xrOpen` |
| `python/hidefix/xarray.py:172` | `__init__` | `Xarray.pyEq`, `Xarray.xrFill`, `Xarray.xrVariables`, `XrIndex.xrIndex`, `XrPoints.xrPoints` |
| `python/hidefix/xarray.py:187` | `__getitem__` | `XrIndex.npIndex`, `XrIndex.xrDecompose`, `XrIndex.xrIndex`, `XrIndex.xrItem`, `XrIndex.xrSlice`, `XrPoints.npPoints` … |
| `python/hidefix/xarray.py:191` | `_getitem` | `Xarray.xrGetItem` |

158 of 224 functions are modelled; the others have the reason given.
