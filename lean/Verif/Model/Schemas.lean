import Verif.Model.Greenpack

/-!
# The fields of the structs that `/repo` encodes

For each struct with generated greenpack code: `maxFields` of its
`UnmarshalMsgWithCfg` (the length of `unmarshalMsgFieldOrder`, which also counts
fields that are never encoded), then its encoded fields in the order in which
`MarshalMsg` writes them.  A field has the key that the generated code writes,
whether `fieldsNotEmpty` can leave it out, and its type in Go.  Named types are
unfolded: `CallType`, `RaftRole`, `TicketOp`, `HLC` and `time.Duration` are
integers, `Key` is a string, `Val` and `ByteSlice` are byte slices.

Left out: structs that only tests use, and those without fields.
-/

namespace Verif.Greenpack

/-- `HDR`: hdr_gen.go 757-906 (encode), 912-1183 (decode). -/
def HDR : Struct := ⟨24, [
  ("Created_zid00_tim", true, .prim .tim),
  ("From_zid01_str", true, .prim .str),
  ("To_zid02_str", true, .prim .str),
  ("ToServiceName_zid03_str", true, .prim .str),
  ("ToPeerServiceNameVersion_zid04_str", true, .prim .str),
  ("FromServiceName_zid05_str", true, .prim .str),
  ("FromPeerServiceNameVersion_zid06_str", true, .prim .str),
  ("Args_zid07_map", true, .map .str (.prim .str)),
  ("Subject_zid08_str", true, .prim .str),
  ("Seqno_zid09_u64", true, .prim .u64),
  ("Typ_zid10_rct", true, .prim .i64),
  ("CallID_zid11_str", true, .prim .str),
  ("Serial_zid12_i64", true, .prim .i64),
  ("LocalRecvTm_zid13_tim", true, .prim .tim),
  ("Deadline_zid14_tim", true, .prim .tim),
  ("StreamPart_zid15_i64", true, .prim .i64),
  ("NoSystemCompression_zid16_boo", true, .prim .boo),
  ("ToPeerID_zid17_str", true, .prim .str),
  ("ToPeerName_zid18_str", true, .prim .str),
  ("FromPeerID_zid19_str", true, .prim .str),
  ("FromPeerName_zid20_str", true, .prim .str),
  ("FragOp_zid21_int", true, .prim .i64)]⟩

/-- `Message`: hdr_gen.go 1450-1490 (encode), 1496-1614 (decode). -/
def Message : Struct := ⟨6, [
  ("HDR_zid00_rct", false, .rct HDR.slots HDR.fields),
  ("JobSerz_zid01_bin", true, .prim .bin),
  ("JobErrs_zid02_str", true, .prim .str),
  ("EOF_zid03_boo", true, .prim .boo)]⟩

/-- `EpochVers`: ckt_gen.go 186-211 (encode), 217-312 (decode). -/
def EpochVers : Struct := ⟨2, [
  ("EpochID_zid00_i64", true, .prim .i64),
  ("EpochTieBreaker_zid01_str", true, .prim .str)]⟩

/-- `Fragment`: ckt_gen.go 891-1019 (encode), 1025-1273 (decode). -/
def Fragment : Struct := ⟨18, [
  ("FromPeerID_zid00_str", true, .prim .str),
  ("FromPeerName_zid01_str", true, .prim .str),
  ("FromPeerServiceName_zid02_str", true, .prim .str),
  ("FromPeerServiceNameVersion_zid03_str", true, .prim .str),
  ("ToPeerID_zid04_str", true, .prim .str),
  ("ToPeerName_zid05_str", true, .prim .str),
  ("ToPeerServiceName_zid06_str", true, .prim .str),
  ("ToPeerServiceNameVersion_zid07_str", true, .prim .str),
  ("CircuitID_zid08_str", true, .prim .str),
  ("Serial_zid09_i64", true, .prim .i64),
  ("Typ_zid10_rct", false, .prim .i64),
  ("FragOp_zid11_int", true, .prim .i64),
  ("FragSubject_zid12_str", true, .prim .str),
  ("FragPart_zid13_i64", true, .prim .i64),
  ("Args_zid14_map", true, .map .str (.prim .str)),
  ("Payload_zid15_bin", true, .prim .bin),
  ("Err_zid16_str", true, .prim .str),
  ("Created_zid17_tim", true, .prim .tim)]⟩

/-- `caboose`: symmetric_gen.go 384-463 (encode), 469-717 (decode). -/
def caboose : Struct := ⟨11, [
  ("ClientAuthTag_zid00_bin", true, .prim .bin),
  ("ClientEphemPubKey_zid01_bin", true, .prim .bin),
  ("ClientSigOfEphem_zid02_bin", true, .prim .bin),
  ("ClientSigningCert_zid03_bin", true, .prim .bin),
  ("ClientSentAt_zid04_tim", true, .prim .tim),
  ("ServerAuthTag_zid05_bin", true, .prim .bin),
  ("ServerEphemPubKey_zid06_bin", true, .prim .bin),
  ("ServerSigOfEphem_zid07_bin", true, .prim .bin),
  ("ServerSigningCert_zid08_bin", true, .prim .bin),
  ("ServerSentAt_zid09_tim", true, .prim .tim),
  ("ServerNewPub_zid10_bin", true, .prim .bin)]⟩

/-- `verifiedHandshake`: symmetric_gen.go 965-1002 (encode), 1008-1147 (decode). -/
def verifiedHandshake : Struct := ⟨4, [
  ("EphemPubKey_zid00_bin", true, .prim .bin),
  ("SignatureOfEphem_zid01_bin", true, .prim .bin),
  ("SigningCert_zid02_bin", true, .prim .bin),
  ("SenderSentAt_zid03_tim", true, .prim .tim)]⟩

/-- `CDC_Config`: jcdc/ultracdc_gen.go 206-237 (encode), 243-345 (decode). -/
def CDC_Config : Struct := ⟨3, [
  ("MinSize_zid00_int", true, .prim .i64),
  ("TargetSize_zid01_int", true, .prim .i64),
  ("MaxSize_zid02_int", true, .prim .i64)]⟩

/-- `DirSummary`: jsync/dirscan_gen.go 186-211 (encode), 217-312 (decode). -/
def DirSummary : Struct := ⟨2, [
  ("NumFiles_zid00_i64", true, .prim .i64),
  ("NumBytes_zid01_i64", true, .prim .i64)]⟩

/-- `File`: jsync/dirscan_gen.go 617-672 (encode), 678-808 (decode). -/
def File : Struct := ⟨7, [
  ("Path_zid00_str", true, .prim .str),
  ("Size_zid01_i64", true, .prim .i64),
  ("FileMode_zid02_u32", true, .prim .u32),
  ("ScanFlags_zid03_u32", true, .prim .u32),
  ("ModTime_zid04_tim", true, .prim .tim),
  ("SymLinkTarget_zid05_str", true, .prim .str),
  ("Serial_zid06_i64", true, .prim .i64)]⟩

/-- `PackOfDirs`: jsync/dirscan_gen.go 1057-1096 (encode), 1102-1237 (decode). -/
def PackOfDirs : Struct := ⟨2, [
  ("Pack_zid00_slc", true, .slc (.ptr "File")),
  ("IsLast_zid01_boo", true, .prim .boo)]⟩

/-- `PackOfFiles`: jsync/dirscan_gen.go 1511-1556 (encode), 1562-1704 (decode). -/
def PackOfFiles : Struct := ⟨3, [
  ("Pack_zid00_slc", true, .slc (.ptr "File")),
  ("IsLast_zid01_boo", true, .prim .boo),
  ("TotalFileBytes_zid02_i64", true, .prim .i64)]⟩

/-- `PackOfLeafPaths`: jsync/dirscan_gen.go 1926-1954 (encode), 1960-2072 (decode). -/
def PackOfLeafPaths : Struct := ⟨2, [
  ("Pack_zid00_slc", true, .slc (.prim .str)),
  ("IsLast_zid01_boo", true, .prim .boo)]⟩

/-- `Chunk`: jsync/rsync_gen.go 661-698 (encode), 704-823 (decode). -/
def Chunk : Struct := ⟨4, [
  ("Beg_zid00_i64", true, .prim .i64),
  ("Endx_zid01_i64", true, .prim .i64),
  ("Cry_zid02_str", true, .prim .str),
  ("Data_zid03_bin", true, .prim .bin)]⟩

/-- `Chunks`: jsync/rsync_gen.go 1201-1276 (encode), 1282-1459 (decode). -/
def Chunks : Struct := ⟨8, [
  ("Chunks_zid00_slc", true, .slc (.ptr "Chunk")),
  ("Path_zid01_str", true, .prim .str),
  ("FileSize_zid02_i64", true, .prim .i64),
  ("FileCry_zid03_str", true, .prim .str),
  ("PreAllocUnwritBeg_zid04_i64", true, .prim .i64),
  ("PreAllocUnwritEndx_zid05_i64", true, .prim .i64),
  ("PreAllocLargestSpan_zid06_i64", true, .prim .i64),
  ("PreAllocBeforeLast_zid07_boo", true, .prim .boo)]⟩

/-- `FilePrecis`: jsync/rsync_gen.go 2117-2267 (encode), 2273-2534 (decode). -/
def FilePrecis : Struct := ⟨21, [
  ("CallID_zid00_str", true, .prim .str),
  ("IsFromSender_zid01_boo", true, .prim .boo),
  ("Created_zid02_tim", true, .prim .tim),
  ("Host_zid03_str", true, .prim .str),
  ("Path_zid04_str", true, .prim .str),
  ("ModTime_zid05_tim", true, .prim .tim),
  ("FileSize_zid06_i64", true, .prim .i64),
  ("FileMode_zid07_u32", true, .prim .u32),
  ("FileOwner_zid08_str", true, .prim .str),
  ("FileOwnerID_zid09_u32", true, .prim .u32),
  ("FileGroup_zid10_str", true, .prim .str),
  ("FileGroupID_zid11_u32", true, .prim .u32),
  ("FileMeta_zid12_bin", true, .prim .bin),
  ("HashName_zid13_str", true, .prim .str),
  ("FileCry_zid14_str", true, .prim .str),
  ("IsSparse_zid15_boo", true, .prim .boo),
  ("PreAllocUnwritBeg_zid16_i64", true, .prim .i64),
  ("PreAllocUnwritEndx_zid17_i64", true, .prim .i64),
  ("ChunkerName_zid18_str", true, .prim .str),
  ("CDC_Config_zid19_ptr", true, .ptr "CDC_Config"),
  ("PathAbsent_zid20_boo", true, .prim .boo)]⟩

/-- `HeavyPlan`: jsync/rsync_gen.go 2838-2891 (encode), 2897-3045 (decode). -/
def HeavyPlan : Struct := ⟨3, [
  ("SenderPath_zid00_str", true, .prim .str),
  ("SenderPrecis_zid01_ptr", true, .ptr "FilePrecis"),
  ("SenderPlan_zid02_ptr", true, .ptr "Chunks")]⟩

/-- `LightRequest`: jsync/rsync_gen.go 3336-3389 (encode), 3395-3543 (decode). -/
def LightRequest : Struct := ⟨3, [
  ("SenderPath_zid00_str", true, .prim .str),
  ("ReaderPrecis_zid01_ptr", true, .ptr "FilePrecis"),
  ("ReaderChunks_zid02_ptr", true, .ptr "Chunks")]⟩

/-- `SenderPlan`: jsync/rsync_gen.go 4924-4983 (encode), 4989-5144 (decode). -/
def SenderPlan : Struct := ⟨4, [
  ("SenderPath_zid00_str", true, .prim .str),
  ("SenderPrecis_zid01_ptr", true, .ptr "FilePrecis"),
  ("SenderChunksNoSlice_zid02_ptr", true, .ptr "Chunks"),
  ("FileIsDeleted_zid03_boo", true, .prim .boo)]⟩

/-- `ProgressUpdate`: jsync/service_gen.go 230-267 (encode), 273-382 (decode). -/
def ProgressUpdate : Struct := ⟨4, [
  ("Path_zid00_str", true, .prim .str),
  ("Total_zid01_i64", true, .prim .i64),
  ("Latest_zid02_i64", true, .prim .i64),
  ("T0_zid03_tim", true, .prim .tim)]⟩

/-- `RequestToSyncDir`: jsync/service_gen.go 786-870 (encode), 876-1050 (decode). -/
def RequestToSyncDir : Struct := ⟨10, [
  ("GiverDir_zid00_str", true, .prim .str),
  ("GiverDirModTime_zid01_tim", true, .prim .tim),
  ("TopTakerDirTemp_zid02_str", true, .prim .str),
  ("TopTakerDirTempDirID_zid03_str", true, .prim .str),
  ("TopTakerDirFinal_zid04_str", true, .prim .str),
  ("RemoteTakes_zid05_boo", true, .prim .boo),
  ("SR_zid06_ptr", true, .ptr "RequestToSyncPath"),
  ("GiverTotalFileBytes_zid07_i64", true, .prim .i64),
  ("TakerTargetUnknown_zid08_boo", true, .prim .boo),
  ("DryRun_zid09_boo", true, .prim .boo)]⟩

/-- `RequestToSyncPath`: jsync/service_gen.go 2091-2348 (encode), 2354-2740 (decode). -/
def RequestToSyncPath : Struct := ⟨39, [
  ("GiverPath_zid00_str", true, .prim .str),
  ("TakerPath_zid01_str", true, .prim .str),
  ("TakerModTime_zid02_tim", true, .prim .tim),
  ("TakerFileSize_zid03_i64", true, .prim .i64),
  ("TakerFileMode_zid04_u32", true, .prim .u32),
  ("ToRemotePeerServiceName_zid05_str", true, .prim .str),
  ("ToRemoteNetAddr_zid06_str", true, .prim .str),
  ("ToRemoteURL_zid07_str", true, .prim .str),
  ("ToRemotePeerID_zid08_str", true, .prim .str),
  ("SyncFromHostname_zid09_str", true, .prim .str),
  ("SyncFromHostCID_zid10_str", true, .prim .str),
  ("GiverFullFileBlake3_zid11_str", true, .prim .str),
  ("TakerFullFileBlake3_zid12_str", true, .prim .str),
  ("SizeModTimeMatch_zid13_boo", true, .prim .boo),
  ("GiverDirAbs_zid14_str", true, .prim .str),
  ("Errs_zid15_str", true, .prim .str),
  ("BytesSent_zid16_i64", true, .prim .i64),
  ("BytesRead_zid17_i64", true, .prim .i64),
  ("RemoteBytesTransferred_zid18_i64", true, .prim .i64),
  ("MoreChunksComming_zid19_boo", true, .prim .boo),
  ("RemoteTakes_zid20_boo", true, .prim .boo),
  ("Precis_zid21_ptr", true, .ptr "FilePrecis"),
  ("Chunks_zid22_ptr", true, .ptr "Chunks"),
  ("GiverIsDir_zid23_boo", true, .prim .boo),
  ("TakerIsDir_zid24_boo", true, .prim .boo),
  ("GiverExistsLocal_zid25_boo", true, .prim .boo),
  ("TakerExistsLocal_zid26_boo", true, .prim .boo),
  ("TakerStartsEmpty_zid27_boo", true, .prim .boo),
  ("GiverStartsEmpty_zid28_boo", true, .prim .boo),
  ("TakerTempDir_zid29_str", true, .prim .str),
  ("TopTakerDirFinal_zid30_str", true, .prim .str),
  ("GiverModTime_zid31_tim", true, .prim .tim),
  ("GiverFileSize_zid32_i64", true, .prim .i64),
  ("GiverFileMode_zid33_u32", true, .prim .u32),
  ("GiverScanFlags_zid34_u32", true, .prim .u32),
  ("GiverSymLinkTarget_zid35_str", true, .prim .str),
  ("DryRun_zid36_boo", true, .prim .boo)]⟩

/-- `art.Leaf`: tube/art/leaf_gen.go 725-810 (encode), 816-1005 (decode). -/
def art_Leaf : Struct := ⟨12, [
  ("Key_zid00_rct", true, .prim .bin),
  ("Value_zid01_bin", true, .prim .bin),
  ("Version_zid02_i64", true, .prim .i64),
  ("Vtype_zid03_str", true, .prim .str),
  ("Leasor_zid04_str", true, .prim .str),
  ("LeaseUntilTm_zid05_tim", true, .prim .tim),
  ("WriteRaftLogIndex_zid06_i64", true, .prim .i64),
  ("LeaseEpoch_zid07_i64", true, .prim .i64),
  ("AutoDelete_zid08_boo", true, .prim .boo),
  ("LeasorPeerID_zid09_str", true, .prim .str),
  ("LeaseEpochT0_zid10_tim", true, .prim .tim),
  ("LeaseRenewalElap_zid11_dur", false, .prim .i64)]⟩

/-- `art.Tree`: tube/art/tree_gen.go 308-341 (encode), 347-475 (decode). -/
def art_Tree : Struct := ⟨3, [
  ("Leafz_zid00_slc", true, .slc (.ptr "art.Leaf"))]⟩

/-- `ArtTable`: tube/kv_gen.go 196-226 (encode), 232-343 (decode). -/
def ArtTable : Struct := ⟨1, [
  ("Tree_zid00_ptr", true, .ptr "art.Tree")]⟩

/-- `KVStore`: tube/kv_gen.go 727-790 (encode), 796-1025 (decode). -/
def KVStore : Struct := ⟨2, [
  ("Keys_zid00_slc", true, .slc (.prim .str)),
  ("Vals_zid01_slc", true, .slc (.ptr "ArtTable"))]⟩

/-- `ParRecord`: tube/par_gen.go 340-407 (encode), 413-557 (decode). -/
def ParRecord : Struct := ⟨9, [
  ("Offset_zid00_i64", true, .prim .i64),
  ("Len0_zid01_i64", true, .prim .i64),
  ("Len2_zid02_i64", true, .prim .i64),
  ("Index_zid03_i64", true, .prim .i64),
  ("Term_zid04_i64", true, .prim .i64),
  ("Epoch_zid05_i64", true, .prim .i64),
  ("TicketID_zid06_str", true, .prim .str),
  ("ClusterID_zid07_str", true, .prim .str),
  ("RLEblake3_zid08_str", true, .prim .str)]⟩

/-- `AppendEntries`: tube/tube_gen.go 850-1058 (encode), 1064-1458 (decode). -/
def AppendEntries : Struct := ⟨24, [
  ("ClusterID_zid00_str", true, .prim .str),
  ("FromPeerID_zid01_str", true, .prim .str),
  ("FromPeerName_zid02_str", true, .prim .str),
  ("FromPeerServiceName_zid03_str", true, .prim .str),
  ("FromPeerServiceNameVersion_zid04_str", true, .prim .str),
  ("LeaderTerm_zid05_i64", true, .prim .i64),
  ("LeaderID_zid06_str", true, .prim .str),
  ("LeaderName_zid07_str", true, .prim .str),
  ("LeaderURL_zid08_str", true, .prim .str),
  ("PrevLogIndex_zid09_i64", true, .prim .i64),
  ("PrevLogTerm_zid10_i64", true, .prim .i64),
  ("Entries_zid11_slc", true, .slc (.ptr "RaftLogEntry")),
  ("LeaderCommitIndex_zid12_i64", true, .prim .i64),
  ("LeaderCommitIndexEntryTerm_zid13_i64", true, .prim .i64),
  ("LogTermsRLE_zid14_ptr", true, .ptr "TermsRLE"),
  ("AEID_zid15_str", true, .prim .str),
  ("MC_zid16_ptr", true, .ptr "MemberConfig"),
  ("ShadowReplicas_zid17_ptr", true, .ptr "MemberConfig"),
  ("PeerID2LastHeard_zid18_map", true, .map .str (.prim .tim)),
  ("LeaderLLI_zid19_i64", true, .prim .i64),
  ("LeaderLLT_zid20_i64", true, .prim .i64),
  ("LeaderCompactIndex_zid21_i64", true, .prim .i64),
  ("LeaderCompactTerm_zid22_i64", true, .prim .i64),
  ("LeaderHLC_zid23_rct", true, .prim .i64)]⟩

/-- `AppendEntriesAck`: tube/tube_gen.go 2800-3116 (encode), 3122-3648 (decode). -/
def AppendEntriesAck : Struct := ⟨41, [
  ("ClusterID_zid00_str", true, .prim .str),
  ("FromPeerID_zid01_str", true, .prim .str),
  ("FromPeerName_zid02_str", true, .prim .str),
  ("FromPeerServiceName_zid03_str", true, .prim .str),
  ("FromPeerServiceNameVersion_zid04_str", true, .prim .str),
  ("Term_zid05_i64", true, .prim .i64),
  ("Rejected_zid06_boo", true, .prim .boo),
  ("LogsMatchExactly_zid07_boo", true, .prim .boo),
  ("LargestCommonRaftIndex_zid08_i64", true, .prim .i64),
  ("ConflictTerm_zid09_i64", true, .prim .i64),
  ("ConflictTerm1stIndex_zid10_i64", true, .prim .i64),
  ("PeerLogCompactIndex_zid11_i64", true, .prim .i64),
  ("PeerLogCompactTerm_zid12_i64", true, .prim .i64),
  ("PeerLogFirstIndex_zid13_i64", true, .prim .i64),
  ("PeerLogFirstTerm_zid14_i64", true, .prim .i64),
  ("PeerLogLastIndex_zid15_i64", true, .prim .i64),
  ("PeerLogLastTerm_zid16_i64", true, .prim .i64),
  ("SuppliedPrevLogIndex_zid17_i64", true, .prim .i64),
  ("SuppliedPrevLogTerm_zid18_i64", true, .prim .i64),
  ("SuppliedEntriesIndexBeg_zid19_i64", true, .prim .i64),
  ("SuppliedEntriesIndexEnd_zid20_i64", true, .prim .i64),
  ("SuppliedLeaderCommitIndex_zid21_i64", true, .prim .i64),
  ("SuppliedLeader_zid22_str", true, .prim .str),
  ("SuppliedLeaderName_zid23_str", true, .prim .str),
  ("SuppliedLeaderTermsRLE_zid24_ptr", true, .ptr "TermsRLE"),
  ("SuppliedLeaderLastTerm_zid25_i64", true, .prim .i64),
  ("SuppliedLeaderLLI_zid26_i64", true, .prim .i64),
  ("SuppliedLeaderLLT_zid27_i64", true, .prim .i64),
  ("PeerLogTermsRLE_zid28_ptr", true, .ptr "TermsRLE"),
  ("RejectReason_zid29_str", true, .prim .str),
  ("AEID_zid30_str", true, .prim .str),
  ("MinElectionTimeoutDur_zid31_dur", false, .prim .i64),
  ("SpanMatching_zid32_ptr", true, .ptr "LogEntrySpan"),
  ("PeerMC_zid33_ptr", true, .ptr "MemberConfig"),
  ("PeerCompactionDiscardedLastIndex_zid34_i64", true, .prim .i64),
  ("PeerCompactionDiscardedLastTerm_zid35_i64", true, .prim .i64),
  ("NeedSnapshotGap_zid36_boo", true, .prim .boo),
  ("SuppliedLeaderCommitIndexEntryTerm_zid37_i64", true, .prim .i64),
  ("SuppliedCompactIndex_zid38_i64", true, .prim .i64),
  ("SuppliedCompactTerm_zid39_i64", true, .prim .i64),
  ("FollowerHLC_zid40_rct", true, .prim .i64)]⟩

/-- `Blake3sum`: tube/tube_gen.go 3911-3936 (encode), 3942-4037 (decode). -/
def Blake3sum : Struct := ⟨2, [
  ("Sum33B_zid00_str", true, .prim .str),
  ("Sum33Bchain_zid01_str", true, .prim .str)]⟩

/-- `ExternalCluster`: tube/tube_gen.go 5193-5216 (encode), 5222-5342 (decode). -/
def ExternalCluster : Struct := ⟨2, [
  ("Serz_zid00_map", true, .map .str (.prim .str))]⟩

/-- `FirstRaftLogEntryBootstrap`: tube/tube_gen.go 5596-5638 (encode), 5644-5769 (decode). -/
def FirstRaftLogEntryBootstrap : Struct := ⟨4, [
  ("NewConfig__ptr", true, .ptr "MemberConfig"),
  ("DoElection__boo", true, .prim .boo),
  ("Err__str", true, .prim .str)]⟩

/-- `IndexTerm`: tube/tube_gen.go 6066-6091 (encode), 6097-6192 (decode). -/
def IndexTerm : Struct := ⟨2, [
  ("Index_zid00_i64", true, .prim .i64),
  ("Term_zid01_i64", true, .prim .i64)]⟩

/-- `TubeConfig`: tube/tube_gen.go 25472-25633 (encode), 25639-25920 (decode). -/
def TubeConfig : Struct := ⟨25, [
  ("ConfigName_zid00_str", true, .prim .str),
  ("ClusterID_zid01_str", true, .prim .str),
  ("ConfigDir_zid02_str", true, .prim .str),
  ("DataDir_zid03_str", true, .prim .str),
  ("NoFaultTolDur_zid04_dur", false, .prim .i64),
  ("NoDisk_zid05_boo", true, .prim .boo),
  ("TCPonly_no_TLS_zid06_boo", true, .prim .boo),
  ("HeartbeatDur_zid07_dur", false, .prim .i64),
  ("MinElectionDur_zid08_dur", false, .prim .i64),
  ("ClusterSize_zid09_int", true, .prim .i64),
  ("UseSimNet_zid10_boo", true, .prim .boo),
  ("SimnetGOMAXPROCS_zid11_int", true, .prim .i64),
  ("ClockDriftBound_zid12_dur", false, .prim .i64),
  ("InitialLeaderName_zid13_str", true, .prim .str),
  ("MyName_zid14_str", true, .prim .str),
  ("PeerServiceName_zid15_str", true, .prim .str),
  ("Node2Addr_zid16_map", true, .map .str (.prim .str)),
  ("NoBackgroundConnect_zid17_boo", true, .prim .boo),
  ("NoLogCompaction_zid18_boo", true, .prim .boo),
  ("ZapMC_zid19_boo", true, .prim .boo),
  ("BatchAccumulateDur_zid20_dur", false, .prim .i64),
  ("TupDefaultTable_zid21_str", true, .prim .str),
  ("InitialSimnetScenario_zid22_i64", true, .prim .i64),
  ("CompactionThresholdBytes_zid23_i64", true, .prim .i64)]⟩

/-- `Inspection`: tube/tube_gen.go 7529-7839 (encode), 7845-8583 (decode). -/
def Inspection : Struct := ⟨32, [
  ("CktReplica_zid00_map", true, .map .str (.prim .str)),
  ("CktReplicaByName_zid01_map", true, .map .str (.prim .str)),
  ("CktAll_zid02_map", true, .map .str (.prim .str)),
  ("CktAllByName_zid03_map", true, .map .str (.prim .str)),
  ("Peers_zid04_map", true, .map .str (.ptr "RaftNodeInfo")),
  ("WaitingAtLeader_zid05_map", true, .map .str (.ptr "Ticket")),
  ("WaitingAtFollow_zid06_map", true, .map .str (.ptr "Ticket")),
  ("Role_zid07_rct", true, .prim .i64),
  ("State_zid08_ptr", true, .ptr "RaftState"),
  ("CurrentLeaderName_zid09_str", true, .prim .str),
  ("CurrentLeaderID_zid10_str", true, .prim .str),
  ("CurrentLeaderURL_zid11_str", true, .prim .str),
  ("CurrentLeaderTerm_zid12_i64", true, .prim .i64),
  ("ElectionCount_zid13_int", true, .prim .i64),
  ("LastLeaderActiveStepDown_zid14_tim", true, .prim .tim),
  ("Cfg_zid15_rct", false, .rct TubeConfig.slots TubeConfig.fields),
  ("MC_zid16_ptr", true, .ptr "MemberConfig"),
  ("ResponderPeerID_zid17_str", true, .prim .str),
  ("ResponderPeerURL_zid18_str", true, .prim .str),
  ("ResponderName_zid19_str", true, .prim .str),
  ("LastLogIndex_zid20_i64", true, .prim .i64),
  ("LastLogTerm_zid21_i64", true, .prim .i64),
  ("LastLogLeaderName_zid22_str", true, .prim .str),
  ("LastLogTicketOp_zid23_rct", true, .prim .i64),
  ("LogIndexBaseC_zid24_i64", true, .prim .i64),
  ("ShadowReplicas_zid25_ptr", true, .ptr "MemberConfig"),
  ("Known_zid26_map", true, .map .str (.prim .str)),
  ("CurrentLeaderFirstObservedTm_zid27_tim", true, .prim .tim),
  ("Minimal_zid28_boo", true, .prim .boo),
  ("Hostname_zid29_str", true, .prim .str),
  ("PID_zid30_str", true, .prim .str),
  ("CktAuditByCID_zid31_map", true, .map .str (.prim .str))]⟩

/-- `LeaderRedirect`: tube/tube_gen.go 9029-9060 (encode), 9066-9168 (decode). -/
def LeaderRedirect : Struct := ⟨3, [
  ("LeaderName_zid00_str", true, .prim .str),
  ("LeaderID_zid01_str", true, .prim .str),
  ("LeaderURL_zid02_str", true, .prim .str)]⟩

/-- `LogEntrySpan`: tube/tube_gen.go 9364-9389 (encode), 9395-9490 (decode). -/
def LogEntrySpan : Struct := ⟨2, [
  ("Beg_zid00_i64", true, .prim .i64),
  ("Endx_zid01_i64", true, .prim .i64)]⟩

/-- `MemberConfig`: tube/tube_gen.go 10038-10158 (encode), 10164-10407 (decode). -/
def MemberConfig : Struct := ⟨16, [
  ("SerzPeerDetails_zid00_slc", true, .slc (.ptr "PeerDetail")),
  ("RaftLogIndex_zid01_i64", true, .prim .i64),
  ("BootCount_zid02_int", true, .prim .i64),
  ("OriginPeerID_zid03_str", true, .prim .str),
  ("OriginPeerName_zid04_str", true, .prim .str),
  ("OriginPeerServiceName_zid05_str", true, .prim .str),
  ("OriginPeerServiceNameVersion_zid06_str", true, .prim .str),
  ("CreateTm_zid07_tim", true, .prim .tim),
  ("CreateWho_zid08_str", true, .prim .str),
  ("Prov_zid09_slc", true, .slc (.prim .str)),
  ("ConfigVersion_zid10_i64", true, .prim .i64),
  ("ConfigTerm_zid11_i64", true, .prim .i64),
  ("IsCommitted_zid12_boo", true, .prim .boo),
  ("CommitIndex_zid13_i64", true, .prim .i64),
  ("CommitIndexEntryTerm_zid14_i64", true, .prim .i64)]⟩

/-- `PeerDetail`: tube/tube_gen.go 10781-10848 (encode), 10854-10998 (decode). -/
def PeerDetail : Struct := ⟨9, [
  ("Name_zid00_str", true, .prim .str),
  ("URL_zid01_str", true, .prim .str),
  ("PeerID_zid02_str", true, .prim .str),
  ("Addr_zid03_str", true, .prim .str),
  ("PeerServiceName_zid04_str", true, .prim .str),
  ("PeerServiceNameVersion_zid05_str", true, .prim .str),
  ("NonVoting_zid06_boo", true, .prim .boo),
  ("PID_zid07_i64", true, .prim .i64),
  ("Hostname_zid08_str", true, .prim .str)]⟩

/-- `Ping`: tube/tube_gen.go 11222-11253 (encode), 11259-11361 (decode). -/
def Ping : Struct := ⟨3, [
  ("Sent_zid00_tim", true, .prim .tim),
  ("Term_zid01_i64", true, .prim .i64),
  ("AEID_zid02_str", true, .prim .str)]⟩

/-- `Pong`: tube/tube_gen.go 11711-11778 (encode), 11784-11928 (decode). -/
def Pong : Struct := ⟨9, [
  ("Sent_zid00_tim", true, .prim .tim),
  ("RecvTm_zid01_tim", true, .prim .tim),
  ("Term_zid02_i64", true, .prim .i64),
  ("AEID_zid03_str", true, .prim .str),
  ("LogLastIndex_zid04_i64", true, .prim .i64),
  ("LogLastTerm_zid05_i64", true, .prim .i64),
  ("PeerID_zid06_str", true, .prim .str),
  ("PeerName_zid07_str", true, .prim .str),
  ("PeerServiceName_zid08_str", true, .prim .str)]⟩

/-- `RaftLogEntry`: tube/tube_gen.go 12319-12397 (encode), 12403-12574 (decode). -/
def RaftLogEntry : Struct := ⟨9, [
  ("Term_zid00_i64", true, .prim .i64),
  ("Index_zid01_i64", true, .prim .i64),
  ("Ticket_zid02_ptr", true, .ptr "Ticket"),
  ("CurrentCommitIndex_zid03_i64", true, .prim .i64),
  ("PrevIndex_zid04_i64", true, .prim .i64),
  ("PrevTerm_zid05_i64", true, .prim .i64),
  ("Tm_zid06_tim", true, .prim .tim),
  ("LeaderName_zid07_str", true, .prim .str),
  ("LogHLC_zid08_rct", true, .prim .i64)]⟩

/-- `RaftNodeInfo`: tube/tube_gen.go 13363-13526 (encode), 13532-13894 (decode). -/
def RaftNodeInfo : Struct := ⟨15, [
  ("PeerID_zid00_str", true, .prim .str),
  ("PeerName_zid01_str", true, .prim .str),
  ("PeerServiceName_zid02_str", true, .prim .str),
  ("PeerServiceNameVersion_zid03_str", true, .prim .str),
  ("PeerURL_zid04_str", true, .prim .str),
  ("RemoteBaseServerAddr_zid05_str", true, .prim .str),
  ("IsInspectResponder_zid06_boo", true, .prim .boo),
  ("MatchIndex_zid07_i64", true, .prim .i64),
  ("UnackedPing_zid08_rct", false, .rct Ping.slots Ping.fields),
  ("LastFullPing_zid09_rct", false, .rct Ping.slots Ping.fields),
  ("LastFullPong_zid10_rct", false, .rct Pong.slots Pong.fields),
  ("LastHeardAnything_zid11_tim", true, .prim .tim),
  ("LargestCommonRaftIndex_zid12_i64", true, .prim .i64),
  ("MinElectionTimeoutDur_zid13_dur", false, .prim .i64),
  ("MC_zid14_ptr", true, .ptr "MemberConfig")]⟩

/-- `RaftState`: tube/tube_gen.go 15032-15276 (encode), 15282-15775 (decode). -/
def RaftState : Struct := ⟨24, [
  ("Serial_zid00_i64", true, .prim .i64),
  ("PeerName_zid01_str", true, .prim .str),
  ("PeerServiceName_zid02_str", true, .prim .str),
  ("PeerServiceNameVersion_zid03_str", true, .prim .str),
  ("PeerID_zid04_str", true, .prim .str),
  ("ClusterID_zid05_str", true, .prim .str),
  ("CurrentTerm_zid06_i64", true, .prim .i64),
  ("VotedFor_zid07_str", true, .prim .str),
  ("VotedForName_zid08_str", true, .prim .str),
  ("HaveVoted_zid09_boo", true, .prim .boo),
  ("HaveVotedTerm_zid10_i64", true, .prim .i64),
  ("CommitIndex_zid11_i64", true, .prim .i64),
  ("CommitIndexEntryTerm_zid12_i64", true, .prim .i64),
  ("LastApplied_zid13_i64", true, .prim .i64),
  ("LastAppliedTerm_zid14_i64", true, .prim .i64),
  ("KVstore_zid15_ptr", true, .ptr "KVStore"),
  ("MC_zid16_ptr", true, .ptr "MemberConfig"),
  ("Known_zid17_ptr", true, .ptr "MemberConfig"),
  ("Observers_zid18_ptr", true, .ptr "MemberConfig"),
  ("ShadowReplicas_zid19_ptr", true, .ptr "MemberConfig"),
  ("LastSaveTimestamp_zid20_tim", true, .prim .tim),
  ("CompactionDiscardedLast_zid21_rct", false, .rct IndexTerm.slots IndexTerm.fields),
  ("SessTable_zid22_map", true, .map .str (.ptr "SessionTableEntry")),
  ("LastAppliedLogHLC_zid23_rct", true, .prim .i64)]⟩

/-- `RequestVote`: tube/tube_gen.go 16339-16447 (encode), 16453-16659 (decode). -/
def RequestVote : Struct := ⟨14, [
  ("ClusterID_zid00_str", true, .prim .str),
  ("FromPeerID_zid01_str", true, .prim .str),
  ("FromPeerName_zid02_str", true, .prim .str),
  ("FromPeerServiceName_zid03_str", true, .prim .str),
  ("FromPeerServiceNameVersion_zid04_str", true, .prim .str),
  ("CandidatesTerm_zid05_i64", true, .prim .i64),
  ("CandidateID_zid06_str", true, .prim .str),
  ("LastLogIndex_zid07_i64", true, .prim .i64),
  ("LastLogTerm_zid08_i64", true, .prim .i64),
  ("IsPreVote_zid09_boo", true, .prim .boo),
  ("LeadershipTransferFrom_zid10_str", true, .prim .str),
  ("Weight_zid11_f64", true, .prim .f64),
  ("MC_zid12_ptr", true, .ptr "MemberConfig"),
  ("SenderHLC_zid13_rct", true, .prim .i64)]⟩

/-- `Session`: tube/tube_gen.go 17316-17461 (encode), 17467-17706 (decode). -/
def Session : Struct := ⟨22, [
  ("CliName_zid00_str", true, .prim .str),
  ("CliPeerID_zid01_str", true, .prim .str),
  ("CliPeerServiceName_zid02_str", true, .prim .str),
  ("CliRndOnce_zid03_str", true, .prim .str),
  ("CliLastKnownIndex0_zid04_i64", true, .prim .i64),
  ("SessRequestedInitialDur_zid05_dur", false, .prim .i64),
  ("ClusterID_zid06_str", true, .prim .str),
  ("SessionAssignedIndex_zid07_i64", true, .prim .i64),
  ("SessionID_zid08_str", true, .prim .str),
  ("SessionIndexEndxTm_zid09_tim", true, .prim .tim),
  ("LeaderName_zid10_str", true, .prim .str),
  ("LeaderPeerID_zid11_str", true, .prim .str),
  ("LeaderPeerServiceName_zid12_str", true, .prim .str),
  ("LeaderURL_zid13_str", true, .prim .str),
  ("LeaderRndOnce_zid14_str", true, .prim .str),
  ("Errs_zid15_str", true, .prim .str),
  ("SessionSerial_zid16_i64", true, .prim .i64),
  ("LastKnownIndex_zid17_i64", true, .prim .i64),
  ("MinSessSerialWaiting_zid18_i64", true, .prim .i64),
  ("CliURL_zid19_str", true, .prim .str),
  ("T0_zid20_tim", true, .prim .tim),
  ("LastAppliedLogHLC_zid21_rct", true, .prim .i64)]⟩

/-- `SessionTableEntry`: tube/tube_gen.go 18182-18276 (encode), 18282-18495 (decode). -/
def SessionTableEntry : Struct := ⟨12, [
  ("SessionID_zid00_str", true, .prim .str),
  ("HighestSerialSeenFromClient_zid01_i64", true, .prim .i64),
  ("MaxAppliedSerial_zid02_i64", true, .prim .i64),
  ("Serz_zid03_map", true, .map .i64 (.ptr "Ticket")),
  ("SessionEndxTm_zid04_tim", true, .prim .tim),
  ("SessionReplicatedEndxTm_zid05_tim", true, .prim .tim),
  ("SessRequestedInitialDur_zid06_dur", false, .prim .i64),
  ("ClientName_zid07_str", true, .prim .str),
  ("ClientPeerID_zid08_str", true, .prim .str),
  ("ClientURL_zid09_str", true, .prim .str),
  ("T0_zid10_tim", true, .prim .tim)]⟩

/-- `Snapshot`: tube/tube_gen.go 18774-18821 (encode), 18827-18968 (decode). -/
def Snapshot : Struct := ⟨2, [
  ("State_zid00_ptr", true, .ptr "RaftState"),
  ("AE_zid01_ptr", true, .ptr "AppendEntries")]⟩

/-- `TermRLE`: tube/tube_gen.go 19174-19199 (encode), 19205-19300 (decode). -/
def TermRLE : Struct := ⟨2, [
  ("Term_zid00_i64", true, .prim .i64),
  ("Count_zid01_i64", true, .prim .i64)]⟩

/-- `TermsRLE`: tube/tube_gen.go 19693-19757 (encode), 19763-19974 (decode). -/
def TermsRLE : Struct := ⟨4, [
  ("BaseC_zid00_i64", true, .prim .i64),
  ("Endi_zid01_i64", true, .prim .i64),
  ("Runs_zid02_slc", true, .slc (.ptr "TermRLE")),
  ("CompactTerm_zid03_i64", true, .prim .i64)]⟩

/-- `Ticket`: tube/tube_gen.go 22227-22812 (encode), 22818-23749 (decode). -/
def Ticket : Struct := ⟨84, [
  ("TSN_zid00_i64", true, .prim .i64),
  ("T0_zid01_tim", true, .prim .tim),
  ("CreateHLC_zid02_rct", true, .prim .i64),
  ("Key_zid03_rct", true, .prim .str),
  ("Val_zid04_rct", true, .prim .bin),
  ("Table_zid05_rct", true, .prim .str),
  ("OldVal_zid06_rct", true, .prim .bin),
  ("CASwapped_zid07_boo", true, .prim .boo),
  ("CASRejectedBecauseCurVal_zid08_rct", true, .prim .bin),
  ("NewTableName_zid09_rct", true, .prim .str),
  ("Vtype_zid10_str", true, .prim .str),
  ("FromID_zid11_str", true, .prim .str),
  ("FromName_zid12_str", true, .prim .str),
  ("ClusterID_zid13_str", true, .prim .str),
  ("Errs_zid14_str", true, .prim .str),
  ("TicketID_zid15_str", true, .prim .str),
  ("Op_zid16_rct", true, .prim .i64),
  ("LogIndex_zid17_i64", true, .prim .i64),
  ("Term_zid18_i64", true, .prim .i64),
  ("Desc_zid19_str", true, .prim .str),
  ("Committed_zid20_boo", true, .prim .boo),
  ("Applied_zid21_boo", true, .prim .boo),
  ("ClientAcked_zid22_boo", true, .prim .boo),
  ("AsOfLogIndex_zid23_i64", true, .prim .i64),
  ("LeaderID_zid24_str", true, .prim .str),
  ("LeaderName_zid25_str", true, .prim .str),
  ("LeaderURL_zid26_str", true, .prim .str),
  ("LeaderStampSN_zid27_i64", true, .prim .i64),
  ("SessionID_zid28_str", true, .prim .str),
  ("SessionSerial_zid29_i64", true, .prim .i64),
  ("SessionLastKnownIndex_zid30_i64", true, .prim .i64),
  ("Stage_zid31_str", true, .prim .str),
  ("DoneClosedOnPeerID_zid32_str", true, .prim .str),
  ("AddPeerName_zid33_str", true, .prim .str),
  ("AddPeerID_zid34_str", true, .prim .str),
  ("AddPeerServiceName_zid35_str", true, .prim .str),
  ("AddPeerServiceNameVersion_zid36_str", true, .prim .str),
  ("AddPeerBaseServerHostPort_zid37_str", true, .prim .str),
  ("RemovePeerName_zid38_str", true, .prim .str),
  ("RemovePeerID_zid39_str", true, .prim .str),
  ("RemovePeerServiceName_zid40_str", true, .prim .str),
  ("RemovePeerServiceNameVersion_zid41_str", true, .prim .str),
  ("RemovePeerBaseServerHostPort_zid42_str", true, .prim .str),
  ("GuessLeaderURL_zid43_str", true, .prim .str),
  ("Insp_zid44_ptr", true, .ptr "Inspection"),
  ("MC_zid45_ptr", true, .ptr "MemberConfig"),
  ("LeaderGotTicketTm_zid46_tim", true, .prim .tim),
  ("LeaderLocalReadGoodUntil_zid47_tim", true, .prim .tim),
  ("LeaderLocalReadAtTm_zid48_tim", true, .prim .tim),
  ("LeaderLocalReadHLC_zid49_rct", true, .prim .i64),
  ("ClientLocalSubmitTm_zid50_tim", true, .prim .tim),
  ("ClientLocalResponseTm_zid51_tim", true, .prim .tim),
  ("ClientHighestLogIndexSeen_zid52_i64", true, .prim .i64),
  ("NewSessReq_zid53_ptr", true, .ptr "Session"),
  ("NewSessReply_zid54_ptr", true, .ptr "Session"),
  ("DupDetected_zid55_boo", true, .prim .boo),
  ("MinSessSerialWaiting_zid56_i64", true, .prim .i64),
  ("EndSessReq_SessionID_zid57_str", true, .prim .str),
  ("HighestSerialSeenFromClient_zid58_i64", true, .prim .i64),
  ("StateSnapshot_zid59_ptr", true, .ptr "RaftState"),
  ("KeyEndx_zid60_rct", true, .prim .str),
  ("ScanDescend_zid61_boo", true, .prim .boo),
  ("KeyValRangeScan_zid62_ptr", true, .ptr "art.Tree"),
  ("UserDefinedOpCode_zid63_i64", true, .prim .i64),
  ("WaitLeaderDeadline_zid64_tim", true, .prim .tim),
  ("ForceChangeMC_zid65_boo", true, .prim .boo),
  ("LeaseRequestDur_zid66_dur", false, .prim .i64),
  ("Leasor_zid67_str", true, .prim .str),
  ("LeaseUntilTm_zid68_tim", true, .prim .tim),
  ("LeaseEpoch_zid69_i64", true, .prim .i64),
  ("LeaseWriteRaftLogIndex_zid70_i64", true, .prim .i64),
  ("LeasorPeerID_zid71_str", true, .prim .str),
  ("LeaseAutoDel_zid72_boo", true, .prim .boo),
  ("RaftLogEntryTm_zid73_tim", true, .prim .tim),
  ("OldVersionCAS_zid74_i64", true, .prim .i64),
  ("VersionRead_zid75_i64", true, .prim .i64),
  ("Batch_zid76_slc", true, .slc (.ptr "Ticket")),
  ("PrevLeaseVal_zid77_rct", true, .prim .bin),
  ("PrevLeaseVtype_zid78_str", true, .prim .str),
  ("OldLeaseEpochCAS_zid79_i64", true, .prim .i64),
  ("LeaseEpochT0_zid80_tim", true, .prim .tim),
  ("CurValOnFailedWrite_zid81_rct", true, .prim .bin)]⟩

/-- `TubeNode`: tube/tube_gen.go 26211-26254 (encode), 26260-26376 (decode). -/
def TubeNode : Struct := ⟨12, [
  ("ClusterID_zid00_str", true, .prim .str),
  ("URL_zid01_str", true, .prim .str),
  ("PeerID_zid02_str", true, .prim .str),
  ("PeerServiceName_zid03_str", true, .prim .str),
  ("PeerServiceNameVersion_zid04_str", true, .prim .str)]⟩

/-- `Vote`: tube/tube_gen.go 27053-27184 (encode), 27190-27433 (decode). -/
def Vote : Struct := ⟨16, [
  ("ClusterID_zid00_str", true, .prim .str),
  ("FromPeerID_zid01_str", true, .prim .str),
  ("FromPeerName_zid02_str", true, .prim .str),
  ("FromPeerServiceName_zid03_str", true, .prim .str),
  ("FromPeerServiceNameVersion_zid04_str", true, .prim .str),
  ("FromPeerCurrentTerm_zid05_i64", true, .prim .i64),
  ("FromPeerCurrentLLI_zid06_i64", true, .prim .i64),
  ("FromPeerCurrentLLT_zid07_i64", true, .prim .i64),
  ("CandidateID_zid08_str", true, .prim .str),
  ("CandidatesTerm_zid09_i64", true, .prim .i64),
  ("VoteGranted_zid10_boo", true, .prim .boo),
  ("IsPreVote_zid11_boo", true, .prim .boo),
  ("PeerLogTermsRLE_zid12_ptr", true, .ptr "TermsRLE"),
  ("Reason_zid13_str", true, .prim .str),
  ("MC_zid14_ptr", true, .ptr "MemberConfig"),
  ("SenderHLC_zid15_rct", true, .prim .i64)]⟩

/-- `PeerDetailPlus`: tube/czar_gen.go 546-594 (encode), 600-732 (decode). -/
def PeerDetailPlus : Struct := ⟨4, [
  ("Det_zid00_ptr", true, .ptr "PeerDetail"),
  ("RMemberLeaseUntilTm_zid01_tim", true, .prim .tim),
  ("RMemberLeaseDur_zid02_dur", false, .prim .i64),
  ("BootstrapShadowMode_zid03_boo", true, .prim .boo)]⟩

/-- `PingReply`: tube/czar_gen.go 1041-1100 (encode), 1106-1261 (decode). -/
def PingReply : Struct := ⟨4, [
  ("Members_zid00_ptr", true, .ptr "ReliableMembershipList"),
  ("Vers_zid01_ptr", true, .ptr "RMVersionTuple"),
  ("Status_zid02_i32", true, .prim .i32),
  ("CallFrom_zid03_str", true, .prim .str)]⟩

/-- `RMVersionTuple`: tube/czar_gen.go 1558-1607 (encode), 1613-1736 (decode). -/
def RMVersionTuple : Struct := ⟨6, [
  ("CzarLeaseEpoch_zid00_i64", true, .prim .i64),
  ("WithinCzarVersion_zid01_i64", true, .prim .i64),
  ("LeaseUpdateCounter_zid02_i64", true, .prim .i64),
  ("CzarLeaseUntilTm_zid03_tim", true, .prim .tim),
  ("WriteLogIndex_zid04_i64", true, .prim .i64),
  ("LeaseEpochT0_zid05_tim", true, .prim .tim)]⟩

/-- `ReliableMembershipList`: tube/czar_gen.go 2112-2191 (encode), 2197-2399 (decode). -/
def ReliableMembershipList : Struct := ⟨6, [
  ("CzarName_zid00_str", true, .prim .str),
  ("CzarDet_zid01_ptr", true, .ptr "PeerDetailPlus"),
  ("CzarVersProbablyStale_zid02_ptr", true, .ptr "RMVersionTuple"),
  ("SerzPeerDetails_zid03_slc", true, .slc (.ptr "PeerDetailPlus")),
  ("MemberLeaseDur_zid04_dur", false, .prim .i64)]⟩

/-- `hermes.TS`: tube/hermes/hermes_gen.go 4566-4591 (encode), 4597-4692 (decode). -/
def hermes_TS : Struct := ⟨2, [
  ("Version_zid00_i64", true, .prim .i64),
  ("CoordID_zid01_str", true, .prim .str)]⟩

/-- `hermes.ACK`: tube/hermes/hermes_gen.go 484-561 (encode), 567-827 (decode). -/
def hermes_ACK : Struct := ⟨5, [
  ("Key_zid00_rct", true, .prim .str),
  ("FromID_zid01_str", true, .prim .str),
  ("EpochV_zid02_rct", false, .rct EpochVers.slots EpochVers.fields),
  ("TS_zid03_rct", false, .rct hermes_TS.slots hermes_TS.fields),
  ("TicketID_zid04_str", true, .prim .str)]⟩

/-- `hermes.EpochVers`: tube/hermes/hermes_gen.go 1035-1060 (encode), 1066-1161 (decode). -/
def hermes_EpochVers : Struct := ⟨2, [
  ("Epoch_zid00_i64", true, .prim .i64),
  ("Version_zid01_i64", true, .prim .i64)]⟩

/-- `hermes.HermesConfig`: tube/hermes/hermes_gen.go 1378-1409 (encode), 1415-1517 (decode). -/
def hermes_HermesConfig : Struct := ⟨3, [
  ("ReplicationDegree__int", true, .prim .i64),
  ("MessageLossTimeout__dur", false, .prim .i64),
  ("TCPonly_no_TLS__boo", true, .prim .boo)]⟩

/-- `hermes.HermesTicket`: tube/hermes/hermes_gen.go 2202-2303 (encode), 2309-2615 (decode). -/
def hermes_HermesTicket : Struct := ⟨11, [
  ("Key_zid00_rct", true, .prim .str),
  ("Val_zid01_rct", true, .prim .bin),
  ("TS_zid02_rct", false, .rct hermes_TS.slots hermes_TS.fields),
  ("FromID_zid03_str", true, .prim .str),
  ("EpochV_zid04_rct", false, .rct EpochVers.slots EpochVers.fields),
  ("Errs_zid05_str", true, .prim .str),
  ("TicketID_zid06_str", true, .prim .str),
  ("Op_zid07_rct", true, .prim .i64),
  ("PseudoTicketForAckAccum_zid08_boo", true, .prim .boo)]⟩

/-- `hermes.INV`: tube/hermes/hermes_gen.go 3173-3262 (encode), 3268-3556 (decode). -/
def hermes_INV : Struct := ⟨7, [
  ("Key_zid00_rct", true, .prim .str),
  ("FromID_zid01_str", true, .prim .str),
  ("EpochV_zid02_rct", false, .rct EpochVers.slots EpochVers.fields),
  ("TS_zid03_rct", false, .rct hermes_TS.slots hermes_TS.fields),
  ("IsRMW_zid04_boo", true, .prim .boo),
  ("Val_zid05_rct", true, .prim .bin),
  ("TicketID_zid06_str", true, .prim .str)]⟩

/-- `hermes.KeyMeta`: tube/hermes/hermes_gen.go 4075-4141 (encode), 4147-4362 (decode). -/
def hermes_KeyMeta : Struct := ⟨6, [
  ("Key_zid00_rct", true, .prim .str),
  ("TS_zid01_rct", false, .rct hermes_TS.slots hermes_TS.fields),
  ("IsRMW_zid02_boo", true, .prim .boo),
  ("State_zid03_rct", true, .prim .i64),
  ("LastWriterID_zid04_str", true, .prim .str),
  ("Val_zid05_rct", true, .prim .bin)]⟩

/-- `hermes.VALIDATE`: tube/hermes/hermes_gen.go 5280-5357 (encode), 5363-5623 (decode). -/
def hermes_VALIDATE : Struct := ⟨5, [
  ("Key_zid00_rct", true, .prim .str),
  ("FromID_zid01_str", true, .prim .str),
  ("EpochV_zid02_rct", false, .rct EpochVers.slots EpochVers.fields),
  ("TS_zid03_rct", false, .rct hermes_TS.slots hermes_TS.fields),
  ("TicketID_zid04_str", true, .prim .str)]⟩

/-- All of them, by name.  Structs of `tube/art` and `tube/hermes` carry the
name of their package, since other packages use the same names. -/
def structs : List (String × Struct) := [
  ("HDR", HDR),
  ("Message", Message),
  ("EpochVers", EpochVers),
  ("Fragment", Fragment),
  ("caboose", caboose),
  ("verifiedHandshake", verifiedHandshake),
  ("CDC_Config", CDC_Config),
  ("DirSummary", DirSummary),
  ("File", File),
  ("PackOfDirs", PackOfDirs),
  ("PackOfFiles", PackOfFiles),
  ("PackOfLeafPaths", PackOfLeafPaths),
  ("Chunk", Chunk),
  ("Chunks", Chunks),
  ("FilePrecis", FilePrecis),
  ("HeavyPlan", HeavyPlan),
  ("LightRequest", LightRequest),
  ("SenderPlan", SenderPlan),
  ("ProgressUpdate", ProgressUpdate),
  ("RequestToSyncDir", RequestToSyncDir),
  ("RequestToSyncPath", RequestToSyncPath),
  ("art.Leaf", art_Leaf),
  ("art.Tree", art_Tree),
  ("ArtTable", ArtTable),
  ("KVStore", KVStore),
  ("ParRecord", ParRecord),
  ("AppendEntries", AppendEntries),
  ("AppendEntriesAck", AppendEntriesAck),
  ("Blake3sum", Blake3sum),
  ("ExternalCluster", ExternalCluster),
  ("FirstRaftLogEntryBootstrap", FirstRaftLogEntryBootstrap),
  ("IndexTerm", IndexTerm),
  ("TubeConfig", TubeConfig),
  ("Inspection", Inspection),
  ("LeaderRedirect", LeaderRedirect),
  ("LogEntrySpan", LogEntrySpan),
  ("MemberConfig", MemberConfig),
  ("PeerDetail", PeerDetail),
  ("Ping", Ping),
  ("Pong", Pong),
  ("RaftLogEntry", RaftLogEntry),
  ("RaftNodeInfo", RaftNodeInfo),
  ("RaftState", RaftState),
  ("RequestVote", RequestVote),
  ("Session", Session),
  ("SessionTableEntry", SessionTableEntry),
  ("Snapshot", Snapshot),
  ("TermRLE", TermRLE),
  ("TermsRLE", TermsRLE),
  ("Ticket", Ticket),
  ("TubeNode", TubeNode),
  ("Vote", Vote),
  ("PeerDetailPlus", PeerDetailPlus),
  ("PingReply", PingReply),
  ("RMVersionTuple", RMVersionTuple),
  ("ReliableMembershipList", ReliableMembershipList),
  ("hermes.TS", hermes_TS),
  ("hermes.ACK", hermes_ACK),
  ("hermes.EpochVers", hermes_EpochVers),
  ("hermes.HermesConfig", hermes_HermesConfig),
  ("hermes.HermesTicket", hermes_HermesTicket),
  ("hermes.INV", hermes_INV),
  ("hermes.KeyMeta", hermes_KeyMeta),
  ("hermes.VALIDATE", hermes_VALIDATE)]

/-- The declarations of `/repo` as an environment. -/
def repo : Env := fun n => (structs.lookup n).getD ⟨0, []⟩

end Verif.Greenpack
