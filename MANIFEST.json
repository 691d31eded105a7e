{
 "claims": [
  {
   "property": "C01",
   "status": "proved",
   "theorems": [
    "Verif.Channel.C01_fifo",
    "Verif.Channel.C01_conservation",
    "Verif.Channel.C01_ok_means_sent_once",
    "Verif.Channel.C01_error_means_not_sent"
   ],
   "note": "FIFO/conservation over every interleaving of any number of senders with the receiver (Channel machine: one step per critical section)."
  },
  {
   "property": "C02",
   "status": "proved",
   "theorems": [
    "Verif.Channel.C02_slot_exclusive",
    "Verif.Channel.C02_slot_has_owner",
    "Verif.Channel.C02_no_undefined_behaviour",
    "Verif.Channel.C02_accesses_safe"
   ],
   "note": "Slots are owned by exactly one of free queue, ready queue, a sender, the receiver; the unsafe cell accesses are shown defined."
  },
  {
   "property": "C03",
   "status": "proved",
   "theorems": [
    "Verif.Channel.C03_capacity",
    "Verif.Channel.C03_all_slots_return"
   ],
   "note": ""
  },
  {
   "property": "C04",
   "status": "proved",
   "theorems": [
    "Verif.Channel.C04_error_truthful",
    "Verif.Channel.C04_checks_pure",
    "Verif.Channel.C04_uninterrupted"
   ],
   "note": ""
  },
  {
   "property": "C05",
   "status": "proved",
   "theorems": [
    "Verif.Channel.C05_no_lost_wakeup"
   ],
   "note": ""
  },
  {
   "property": "C06",
   "status": "proved",
   "theorems": [
    "Verif.Channel.C06_waiting_implies_full",
    "Verif.Channel.C06_queue_order",
    "Verif.Channel.C06_handover_fifo_and_wakes",
    "Verif.Channel.C06_leaving_is_woken",
    "Verif.Channel.C06_no_overtaking",
    "Verif.Channel.C06_granted_sender_proceeds"
   ],
   "note": ""
  },
  {
   "property": "C07",
   "status": "proved",
   "theorems": [
    "Verif.Channel.C07_cancel_clean",
    "Verif.Channel.C07_cancel_terminates",
    "Verif.Channel.C07_cleanup_enabled",
    "Verif.Channel.C07_unlink_exact",
    "Verif.Channel.C07_slot_passed_on"
   ],
   "note": ""
  },
  {
   "property": "C08",
   "status": "proved",
   "theorems": [
    "Verif.Channel.C08_closed_forever",
    "Verif.Channel.C08_send_returns_value",
    "Verif.Channel.C08_try_send_returns_value",
    "Verif.Channel.C08_no_waiters_left"
   ],
   "note": ""
  },
  {
   "property": "C09",
   "status": "partial",
   "theorems": [
    "Verif.Channel.C09_nosender_violated",
    "Verif.Channel.C09_nosender_partial",
    "Verif.Channel.C09_uninterrupted_partial"
   ],
   "note": "The full statement is false of the code (C09_nosender_violated): try_recv finds the queue empty, then the last sender sends and is dropped, then no sender is found: NoSender although a value is queued. Proved part: after NoSender nothing is ever put in again; and nothing is left if the receive is not preempted between its two checks."
  },
  {
   "property": "C10",
   "status": "partial",
   "theorems": [
    "Verif.Channel.C10_reuse_violated",
    "Verif.Channel.C10_leftover_violated",
    "Verif.Channel.C10_reuse_partial"
   ],
   "note": "False of the code for every history: split does not reset receiver_dropped, so every send is refused (C10_reuse_violated), and queued values of the previous use remain (C10_leftover_violated). Proved part: with an empty queue this flag (and the stale waker) is the only thing missing."
  },
  {
   "property": "C11",
   "status": "proved",
   "theorems": [
    "Verif.Channel.C11_sender_queries",
    "Verif.Channel.C11_sender_is_empty_iff_nothing_in_transit",
    "Verif.Channel.C11_receiver_queries",
    "Verif.Channel.C11_is_empty_predicts_try_recv"
   ],
   "note": ""
  },
  {
   "property": "C12",
   "status": "proved",
   "theorems": [
    "Verif.WaitQueue.C12_wait_queue_is_list"
   ],
   "note": ""
  },
  {
   "property": "C13",
   "status": "proved",
   "theorems": [
    "Verif.WaitQueue.C13_is_popped_exact",
    "Verif.WaitQueue.C13_remove_absent_noop",
    "Verif.WaitQueue.C13_remove_idempotent"
   ],
   "note": ""
  },
  {
   "property": "C14",
   "status": "partial",
   "theorems": [
    "Verif.WaitUntil.C14_missed_wakeup_violated",
    "Verif.WaitUntil.C14_pending_registered",
    "Verif.WaitUntil.C14_wait_until_partial",
    "Verif.WaitUntil.C14_ready_when_true"
   ],
   "note": "False of the code: the waker is registered after the condition was evaluated, a wake in between is lost. Proved part: when no waiter is in this window at the moment the condition becomes true."
  },
  {
   "property": "C15",
   "status": "proved",
   "theorems": [
    "Verif.Arbiter.C15_at_most_one_token",
    "Verif.Arbiter.C15_no_acquire_while_token"
   ],
   "note": ""
  },
  {
   "property": "C16",
   "status": "proved",
   "theorems": [
    "Verif.Arbiter.C16_handover_fifo",
    "Verif.Arbiter.C16_no_overtaking",
    "Verif.Arbiter.C16_waiting_order_kept"
   ],
   "note": ""
  },
  {
   "property": "C17",
   "status": "partial",
   "theorems": [
    "Verif.Arbiter.C17_never_stuck_violated",
    "Verif.Arbiter.C17_stuck_forever_violated",
    "Verif.Arbiter.C17_never_stuck_partial",
    "Verif.Arbiter.C17_cancel_waiting_clean",
    "Verif.Arbiter.C17_release",
    "Verif.Arbiter.C17_never_blocked",
    "Verif.Arbiter.C17_try_access_partial"
   ],
   "note": "False of the code: an access future dropped after the resource was handed to it leaves it taken forever. Partial: holds for executions without such a cancellation."
  },
  {
   "property": "C18",
   "status": "proved",
   "theorems": [
    "Verif.Spi.C18_cs_low_failure",
    "Verif.Spi.C18_protocol",
    "Verif.Spi.C18_ok_means_all_done",
    "Verif.Spi.C18_cs_released",
    "Verif.Spi.C18_transactions_do_not_interleave"
   ],
   "note": ""
  },
  {
   "property": "C19",
   "status": "proved",
   "theorems": [
    "Verif.Signal.C19_read_latest",
    "Verif.Signal.C19_read_none",
    "Verif.Signal.C19_wait_returns_read",
    "Verif.Signal.C19_at_most_once"
   ],
   "note": ""
  },
  {
   "property": "C20",
   "status": "proved",
   "theorems": [
    "Verif.Signal.C20_no_missed_write",
    "Verif.Signal.C20_poll_returns_value",
    "Verif.Signal.C20_poll_result"
   ],
   "note": ""
  },
  {
   "property": "C21",
   "status": "proved",
   "theorems": [
    "Verif.Signal.C21_wait_fresh"
   ],
   "note": ""
  },
  {
   "property": "C22",
   "status": "partial",
   "theorems": [
    "Verif.Await.C22_task_polled_partial",
    "Verif.Watch.C22_copy_latest",
    "Verif.Watch.C22_try_get",
    "Verif.Watch.C22_try_get_none",
    "Verif.Watch.C22_changed_unseen",
    "Verif.Watch.C22_changed_partial",
    "Verif.Watch.C22_changed_poll_partial",
    "Verif.Watch.C22_changed_violated"
   ],
   "note": "False of the code: a write between copying the value and mark_seen is marked seen. Partial: without a write in this window."
  },
  {
   "property": "C23",
   "status": "proved",
   "theorems": [
    "Verif.Signal.C23_single_reader",
    "Verif.Signal.C23_retake"
   ],
   "note": ""
  },
  {
   "property": "C24",
   "status": "proved",
   "theorems": [
    "Verif.Ticks.C24_compare_correct",
    "Verif.Ticks.C24_compare_exact",
    "Verif.Ticks.C24_is_at_least_correct"
   ],
   "note": ""
  },
  {
   "property": "C25",
   "status": "proved",
   "theorems": [
    "Verif.Ticks.C25_delay_not_early",
    "Verif.Ticks.C25_delay_ready_after",
    "Verif.Ticks.C25_delay_limit_exact",
    "Verif.Ticks.C25_blocking_delay_not_early",
    "Verif.Ticks.C25_physical_time",
    "Verif.Ticks.C25_embedded_hal_delay",
    "Verif.TimerQueue.C25_ready_not_before_instant"
   ],
   "note": ""
  },
  {
   "property": "C26",
   "status": "proved",
   "theorems": [
    "Verif.TimerList.C26_timer_list_sorted_stable",
    "Verif.TimerList.C26_order_unique",
    "Verif.TimerList.C26_delete_absent"
   ],
   "note": ""
  },
  {
   "property": "C27",
   "status": "proved",
   "theorems": [
    "Verif.TimerQueue.C27_pop_expired",
    "Verif.TimerQueue.C27_handler_run",
    "Verif.TimerQueue.C27_all_expired_woken",
    "Verif.TimerQueue.C27_handler_returns",
    "Verif.TimerQueue.C27_woken_is_ready",
    "Verif.TimerQueue.C27_woken_exactly_popped",
    "Verif.TimerQueue.C27_waker_of_poll"
   ],
   "note": ""
  },
  {
   "property": "C28",
   "status": "proved",
   "theorems": [
    "Verif.TimerQueue.C28_no_missed_deadline",
    "Verif.TimerQueue.C28_overdue_pending",
    "Verif.TimerQueue.C28_compare_fires",
    "Verif.TimerQueue.C28_handler_wakes_overdue"
   ],
   "note": ""
  },
  {
   "property": "C29",
   "status": "proved",
   "theorems": [
    "Verif.TimerQueue.C29_drop_removes",
    "Verif.TimerQueue.C29_no_dangling",
    "Verif.TimerQueue.C29_drop_completes"
   ],
   "note": ""
  },
  {
   "property": "C30",
   "status": "proved",
   "theorems": [
    "Verif.TimerQueue.C30_ok_iff",
    "Verif.TimerQueue.C30_timeout_iff"
   ],
   "note": ""
  },
  {
   "property": "C31",
   "status": "proved",
   "theorems": [
    "Verif.HalfPeriod.C31_calculate_now_exact",
    "Verif.HalfPeriod.C31_no_overflow",
    "Verif.HalfPeriod.C31_monotonic",
    "Verif.HalfPeriod.C31_lag_two_wrong"
   ],
   "note": ""
  },
  {
   "property": "C32",
   "status": "proved",
   "theorems": [
    "Verif.HalfPeriod.Fine.C32_fine_in_sync",
    "Verif.HalfPeriod.Fine.C32_fine_clock_exact",
    "Verif.HalfPeriod.C32_bookkeeping_in_sync",
    "Verif.HalfPeriod.C32_clock_exact"
   ],
   "note": ""
  },
  {
   "property": "C33",
   "status": "partial",
   "theorems": [
    "Verif.Backends.C33_exact_in_window",
    "Verif.Backends.C33_in_time_partial",
    "Verif.Backends.C33_never_late",
    "Verif.Backends.C33_rp_late_violated",
    "Verif.Backends.C33_nrf_rtc_late_violated"
   ],
   "note": "False on RP2040/RP235x (alarm may come one tick late) and nRF RTC (up to two ticks late). Proved: in time for the other backends and up to these margins for all; exact for instants within the hardware window."
  },
  {
   "property": "C34",
   "status": "proved",
   "theorems": [
    "Verif.Backends.C34_not_torn",
    "Verif.Backends.C34_terminates"
   ],
   "note": ""
  },
  {
   "property": "C35",
   "status": "proved",
   "theorems": [
    "Verif.Backends.C35_monotonic",
    "Verif.Backends.C35_no_tick_missed",
    "Verif.Backends.C35_never_ahead"
   ],
   "note": ""
  },
  {
   "property": "C36",
   "status": "proved",
   "theorems": [
    "Verif.Executor.C36_esp_spawn_ok_iff",
    "Verif.Executor.C36_esp_args_once",
    "Verif.Executor.C36_spawn_ok_iff",
    "Verif.Executor.C36_at_most_one",
    "Verif.Executor.C36_args_once"
   ],
   "note": ""
  },
  {
   "property": "C37",
   "status": "proved",
   "theorems": [
    "Verif.Executor.C37_esp_woken_is_polled",
    "Verif.Executor.C37_esp_spawned_is_polled",
    "Verif.Executor.C37_woken_is_polled",
    "Verif.Executor.C37_flagged_is_polled",
    "Verif.Executor.C37_spawned_is_polled"
   ],
   "note": ""
  },
  {
   "property": "C38",
   "status": "partial",
   "theorems": [
    "Verif.Executor.C38_uninitialised_violated",
    "Verif.Executor.C38_completed_violated",
    "Verif.Executor.C38_no_stale_flag_partial",
    "Verif.Executor.C38_unpreempted_spawn_partial"
   ],
   "note": "False of the code: a stale waker (or task::waker() from safe code) sets the pending flag between try_allocate and the store of the future; the dispatcher then polls an uninitialised or completed future. Partial: true if there is no stale flag, or the spawner is not preempted by the dispatcher."
  },
  {
   "property": "C39",
   "status": "proved",
   "theorems": [
    "Verif.Executor.C39_esp_respawn",
    "Verif.Executor.C39_respawn"
   ],
   "note": ""
  },
  {
   "property": "C40",
   "status": "partial",
   "theorems": [
    "Verif.Analysis.C40_ceiling_is_max_partial",
    "Verif.Analysis.C40_ceiling_on_name_collision",
    "Verif.Analysis.C40_ceiling_violated",
    "Verif.Analysis.C40_handles",
    "Verif.EndToEnd.C40_exclusion_violated"
   ],
   "note": "False of the code on a name collision of a shared and a local resource: the ceiling is overwritten by the local's. C40_ceiling_on_name_collision says exactly what is computed, C40_exclusion_violated shows two tasks inside lock on one resource. Partial: exact maximum if no local resource in use has this name."
  },
  {
   "property": "C41",
   "status": "proved",
   "theorems": [
    "Verif.Analysis.C41_lock_free_single_priority",
    "Verif.Analysis.C41_lock_free_not_refused"
   ],
   "note": ""
  },
  {
   "property": "C42",
   "status": "proved",
   "theorems": [
    "Verif.Analysis.C42_local_exclusive",
    "Verif.Analysis.C42_contexts_disjoint",
    "Verif.Analysis.C42_local_not_refused"
   ],
   "note": ""
  },
  {
   "property": "C43",
   "status": "partial",
   "theorems": [
    "Verif.Analysis.C43_shared_send_partial",
    "Verif.Analysis.C43_local_send",
    "Verif.Analysis.C43_inputs_send",
    "Verif.Analysis.C43_sync",
    "Verif.Analysis.C43_sync_only",
    "Verif.Analysis.C43_send_only",
    "Verif.Analysis.C43_send_violated"
   ],
   "note": "False of the code on the same name collision (Send not demanded). Partial: without the collision, for shared resources; local resources, inputs and Sync are unconditional."
  },
  {
   "property": "C44",
   "status": "proved",
   "theorems": [
    "Verif.Analysis.C44_one_dispatcher_per_priority",
    "Verif.Analysis.C44_task_polled_by_own_dispatcher",
    "Verif.Analysis.C44_dispatchers_not_hardware",
    "Verif.Analysis.C44_too_few_refused"
   ],
   "note": ""
  },
  {
   "property": "C45",
   "status": "proved",
   "theorems": [
    "Verif.Analysis.C45_resources_validated"
   ],
   "note": ""
  },
  {
   "property": "C46",
   "status": "proved",
   "theorems": [
    "Verif.Srp.C46_mutual_exclusion",
    "Verif.Srp.C46_one_holder"
   ],
   "note": ""
  },
  {
   "property": "C47",
   "status": "proved",
   "theorems": [
    "Verif.Esp32.C47_esp32_restores",
    "Verif.SourceMask.C47_source_mask_determined",
    "Verif.SourceMask.C47_source_mask_lock_restores",
    "Verif.SourceMask.C47_source_mask_idle",
    "Verif.Srp.C47_masking_determined",
    "Verif.Srp.C47_lock_restores",
    "Verif.Srp.C47_handler_restores",
    "Verif.Srp.C47_unlocked_unmasked"
   ],
   "note": ""
  },
  {
   "property": "C48",
   "status": "partial",
   "theorems": [
    "Verif.Srp.C48_encoding_partial",
    "Verif.Srp.C48_zero_partial",
    "Verif.Srp.C48_eight_bits_violated"
   ],
   "note": "False of the code for 8 priority bits, which the architecture allows (C48_eight_bits_violated: 1u8 << 8). Proved for 1 to 7, with and without overflow checks. The other properties of BASEPRI targets assume at most 7 bits."
  },
  {
   "property": "C49",
   "status": "proved",
   "theorems": [
    "Verif.SourceMask.C49_mutual_exclusion",
    "Verif.SourceMask.C49_one_holder",
    "Verif.SourceMask.C49_ceiling"
   ],
   "note": ""
  },
  {
   "property": "C50",
   "status": "proved",
   "theorems": [
    "Verif.SourceMask.C50_masks_exact",
    "Verif.SourceMask.C50_chunks"
   ],
   "note": ""
  },
  {
   "property": "C51",
   "status": "partial",
   "theorems": [
    "Verif.Esp32.C51_mutual_exclusion_partial",
    "Verif.Esp32.C51_nested_violated"
   ],
   "note": "False of the code: a nested lock with a lower ceiling lowers the threshold. Proved part: executions in which nested locks have non-decreasing ceilings."
  },
  {
   "property": "C52",
   "status": "proved",
   "theorems": [
    "Verif.SourceMask.C52_mask_running_is_highest",
    "Verif.Esp32.C52_esp_running_is_highest",
    "Verif.Srp.C52_running_is_highest",
    "Verif.Srp.C52_lock_never_blocks",
    "Verif.Srp.C52_can_finish"
   ],
   "note": ""
  },
  {
   "property": "C53",
   "status": "proved",
   "theorems": [
    "Verif.Startup.C53_flags_mean",
    "Verif.Startup.C53_tasks_run_after_init",
    "Verif.Startup.C53_masked_during_init",
    "Verif.Startup.C53_priority_configured",
    "Verif.Startup.C53_all_vectors_enabled",
    "Verif.Startup.C53_thread",
    "Verif.Startup.C53_every_task_runs",
    "Verif.Startup.C53_startup_proceeds",
    "Verif.Startup.C53_slic_after_init",
    "Verif.Startup.C53_slic_masked_during_init",
    "Verif.Startup.C53_slic_every_task_runs"
   ],
   "note": ""
  },
  {
   "property": "C54",
   "status": "proved",
   "theorems": [
    "Verif.WakerReg.C54_wakes_exactly",
    "Verif.WakerReg.C54_registered_is_woken"
   ],
   "note": ""
  },
  {
   "property": "C55",
   "status": "proved",
   "theorems": [
    "Verif.Analysis.C55_async_limit",
    "Verif.Backends.C55_monotonic_prio",
    "Verif.Backends.C55_monotonic_prio_max",
    "Verif.EndToEnd.C55_app_monotonic_prio"
   ],
   "note": ""
  },
  {
   "property": "C56",
   "status": "partial",
   "theorems": [
    "Verif.Spi.C56_cancel_violated",
    "Verif.Spi.C56_cancel_partial"
   ],
   "note": "False of the code: dropping the future while it is suspended in a delay or bus operation leaves chip-select low. Proved part: the blocking-bus device without delay operations has no suspension point at all."
  },
  {
   "property": "C57",
   "status": "partial",
   "theorems": [
    "Verif.Backends.C57_letimer_violated",
    "Verif.Backends.C57_letimer_partial"
   ],
   "note": "False of the code: the 24-bit timer is declared 32 bits wide. Proved part: exact up to half the timer range (2^23 ticks)."
  },
  {
   "property": "C58",
   "status": "partial",
   "theorems": [
    "Verif.Backends.C58_now_current_partial",
    "Verif.Backends.C58_stale_violated"
   ],
   "note": "False of the code: a reader preempted between has_wrapped and fetch_add makes the preempting reader see an old time. Proved part: current if no other reader is in that window."
  },
  {
   "property": "C59",
   "status": "partial",
   "theorems": [
    "Verif.SourceMask.C59_exception_violated",
    "Verif.SourceMask.C59_exception_partial"
   ],
   "note": "False of the code: exceptions cannot be masked through the NVIC enable registers. Proved part: holds if exception-bound users have the lowest priority among the users of the resource."
  },
  {
   "property": "C60",
   "status": "partial",
   "theorems": [
    "Verif.SourceMask.C60_foreign_mask_violated",
    "Verif.SourceMask.C60_foreign_mask_partial",
    "Verif.SourceMask.C60_disabled_outside_locks_partial",
    "Verif.SourceMask.C60_never_disabled_partial"
   ],
   "note": "False of the code: on unlock the whole 32-bit enable chunk read at lock is written back (C60_foreign_mask_violated). Proved parts: interrupts in chunks that contain no masked interrupt are left alone; an interrupt that is disabled while no lock is in progress stays disabled in every continuation (the code never switches on an interrupt that was off when the lock was taken); an interrupt in no mask is switched off only by the application's own NVIC::mask."
  },
  {
   "property": "C61",
   "status": "proved",
   "theorems": [
    "Verif.Analysis.C61_local_tasks_stay_on_executor"
   ],
   "note": ""
  },
  {
   "property": "C62",
   "status": "proved",
   "theorems": [
    "Verif.Analysis.C62_no_internal_panic",
    "Verif.Analysis.C62_esp_no_internal_panic"
   ],
   "note": ""
  },
  {
   "property": "C63",
   "status": "proved",
   "theorems": [
    "Verif.Executor.C63_esp_no_idle_polls",
    "Verif.Executor.C63_no_idle_polls",
    "Verif.Executor.C63_not_due_not_polled"
   ],
   "note": ""
  },
  {
   "property": "C64",
   "status": "proved",
   "theorems": [
    "Verif.EndToEnd.C64_mask_lock_free_exclusive",
    "Verif.EndToEnd.C64_mask_local_exclusive",
    "Verif.EndToEnd.C64_lock_exclusive",
    "Verif.EndToEnd.C64_lock_free_exclusive",
    "Verif.EndToEnd.C64_local_exclusive",
    "Verif.EndToEnd.C64_reference_never_exclusive",
    "Verif.EndToEnd.C64_all_tasks_run",
    "Verif.EndToEnd.C64_mask_lock_exclusive"
   ],
   "note": "Hypothesis NoCollision (a local resource in use is not named like a shared one) is needed, see C40. 8 priority bits excluded (cortex_logical2hw overflows, C48). Exceptions on interrupt-masking targets: see C59."
  },
  {
   "property": "C65",
   "status": "partial",
   "theorems": [
    "Verif.Backends.C65_rate_exact_partial",
    "Verif.Backends.C65_silabs_violated",
    "Verif.Backends.C65_refused_only_if_impossible"
   ],
   "note": "False of the code for the Silabs TIMER with divisors above 1024 (the assertion allows 65536, the prescaler field has 10 bits); the width of that field is taken from the device, not from /repo. Proved for the others and up to 1024."
  },
  {
   "property": "C66",
   "status": "proved",
   "theorems": [
    "Verif.TimerHw.C66_due_interrupt_pending",
    "Verif.TimerHw.C66_never_early",
    "Verif.TimerHw.C66_woken_when_due"
   ],
   "note": ""
  },
  {
   "property": "C67",
   "status": "proved",
   "theorems": [
    "Verif.TimerQueue.C67_interrupt_acknowledged",
    "Verif.TimerQueue.C67_handler_terminates"
   ],
   "note": ""
  },
  {
   "property": "C68",
   "status": "partial",
   "theorems": [
    "Verif.Wakers.C68_signal",
    "Verif.Wakers.C68_watch",
    "Verif.Wakers.C68_wait_until",
    "Verif.Wakers.C68_recv",
    "Verif.Wakers.C68_send_violated",
    "Verif.Wakers.C68_send_partial",
    "Verif.Wakers.C68_access_violated",
    "Verif.Wakers.C68_access_partial",
    "Verif.Wakers.C68_delay_violated",
    "Verif.Wakers.C68_delay_partial"
   ],
   "note": "holds for Signal, Watch, recv and wait_until; violated by send, access and Delay (the first waker is kept), for which only 'a waker it was polled with' is proved"
  },
  {
   "property": "C69",
   "status": "partial",
   "theorems": [
    "Verif.Systimer.C69_now_bounds_partial",
    "Verif.Systimer.C69_now_undisturbed_partial",
    "Verif.Systimer.C69_now_violated",
    "Verif.Systimer.C69_now_wraps_violated"
   ],
   "note": "False of the code: a call preempted between the two halves by another call of now() can return a value almost 2^32 ticks ahead; and the 52-bit counter wraps while Ticks is u64. Proved: never behind, less than 2^32 ahead, exact without a preempting call."
  },
  {
   "property": "C70",
   "status": "partial",
   "theorems": [
    "Verif.Analysis.C70_lines_partial",
    "Verif.Analysis.C70_dispatchers_pendable",
    "Verif.Analysis.C70_spawn_reaches_line_partial",
    "Verif.Analysis.C70_lines_violated"
   ],
   "note": "False of the code for more than 16 (C3) or 12 (C6) interrupts, which the macro does not refuse. Proved below this number."
  },
  {
   "property": "C71",
   "status": "partial",
   "theorems": [
    "Verif.EndToEnd.C71_lock_exclusive_partial",
    "Verif.EndToEnd.C71_lock_free_exclusive",
    "Verif.EndToEnd.C71_local_exclusive",
    "Verif.EndToEnd.C71_all_tasks_run",
    "Verif.EndToEnd.C71_lock_violated"
   ],
   "note": "False of the code for a lock of lower ceiling nested in one of higher ceiling (C51). Proved for properly ordered nestings; lock_free and local without restriction."
  },
  {
   "property": "C72",
   "status": "proved",
   "theorems": [
    "Verif.Analysis.C72_slic_as_explicit",
    "Verif.Analysis.C72_slic_never_too_few",
    "Verif.Analysis.C72_slic_explicit_refused"
   ],
   "note": "Hypothesis: no hardware task binds the generated names __RTICDispatcher<i>. lock/run/pend are in the external crate riscv_slic and not modelled."
  },
  {
   "property": "C73",
   "status": "proved",
   "theorems": [
    "Verif.Channel.C73_sender_bounded",
    "Verif.Channel.C73_sender_never_stuck",
    "Verif.Channel.C73_receive_bounded",
    "Verif.Channel.C73_receiver_never_stuck",
    "Verif.Channel.C73_receiver_drop_bounded",
    "Verif.Channel.C73_recv_result"
   ],
   "note": ""
  },
  {
   "property": "C74",
   "status": "proved",
   "theorems": [
    "Verif.EndToEnd.C74_app_blocked_once",
    "Verif.Srp.C74_single_blocker",
    "Verif.Srp.C74_free_to_start",
    "Verif.Srp.C74_blocked_once",
    "Verif.Srp.C74_never_blocked_later",
    "Verif.Srp.C74_no_lower_starts"
   ],
   "note": "Pending-ness is the relation Waiting (the hardware starts a handler of at least the task's priority at once whenever it is admitted)."
  },
  {
   "property": "C75",
   "status": "partial",
   "theorems": [
    "Verif.SourceMask.C75_free_to_start_partial",
    "Verif.SourceMask.C75_never_blocked_later_partial",
    "Verif.SourceMask.C75_single_blocker_partial",
    "Verif.SourceMask.C75_no_lower_starts_partial",
    "Verif.SourceMask.C75_inversion_violated",
    "Verif.SourceMask.C75_exception_violated",
    "Verif.SourceMask.C75_other_register_violated"
   ],
   "note": "False in general: when the interrupts of two tasks of different priorities are in different registers, the lower-priority task can run in full between the two register writes of a lock that has already masked the pending higher-priority one (C75_inversion_violated; C75_other_register_violated: in every such application in which idle locks a resource of the higher priority); exceptions are never masked by locks (C75_exception_violated). Proved: if the interrupts of lower priority are in the register of the task's own interrupt (always so with up to 32 interrupts) and bound to interrupts everything holds; with any number of registers a task not blocked when pended is never blocked later. No calls of NVIC::mask by the application (C60)."
  },
  {
   "property": "C76",
   "status": "proved",
   "theorems": [
    "Verif.Executor.C76_spawn_bounded",
    "Verif.Executor.C76_wake_bounded",
    "Verif.Executor.C76_never_stuck"
   ],
   "note": ""
  },
  {
   "property": "C77",
   "status": "proved",
   "theorems": [
    "Verif.Executor.C77_esp_spawned_not_starved",
    "Verif.Executor.C77_esp_woken_not_starved",
    "Verif.Executor.C77_spawned_not_starved",
    "Verif.Executor.C77_woken_not_starved"
   ],
   "note": ""
  },
  {
   "property": "C78",
   "status": "proved",
   "theorems": [
    "Verif.Delay.C78_awaiting_task_is_polled",
    "Verif.Delay.C78_no_forgotten_task",
    "Verif.Delay.C78_overdue_is_ready"
   ],
   "note": ""
  },
  {
   "property": "C79",
   "status": "proved",
   "theorems": [
    "Verif.Await.C79_signal_wait",
    "Verif.Await.C79_channel_recv",
    "Verif.Await.C79_arbiter_access",
    "Verif.Await.C79_channel_send",
    "Verif.Await.C79_signal_returned",
    "Verif.Await.C79_watch_returned",
    "Verif.Await.C79_recv_returned"
   ],
   "note": ""
  },
  {
   "property": "C80",
   "status": "proved",
   "theorems": [
    "Verif.Intrusive.Arb.C80_arbiter_no_fault",
    "Verif.Intrusive.Arb.C80_arbiter_refines",
    "Verif.Intrusive.Arb.C80_arbiter_complete",
    "Verif.Intrusive.Arb.C80_arbiter_linked",
    "Verif.Intrusive.Chan.C80_channel_no_fault",
    "Verif.Intrusive.Chan.C80_channel_refines",
    "Verif.Intrusive.Chan.C80_channel_complete",
    "Verif.Intrusive.Chan.C80_channel_linked",
    "Verif.Intrusive.Chan.C80_channel_slot_lands",
    "Verif.Intrusive.Wait.C80_wait_until_no_fault",
    "Verif.Intrusive.Wait.C80_wait_until_refines",
    "Verif.Intrusive.Wait.C80_wait_until_complete",
    "Verif.Intrusive.Wait.C80_wait_until_linked"
   ],
   "note": ""
  },
  {
   "property": "C81",
   "status": "proved",
   "theorems": [
    "Verif.Intrusive.Tim.C81_no_fault",
    "Verif.Intrusive.Tim.C81_refines",
    "Verif.Intrusive.Tim.C81_complete",
    "Verif.Intrusive.Tim.C81_linked"
   ],
   "note": ""
  },
  {
   "property": "C82",
   "status": "proved",
   "theorems": [
    "Verif.EndToEnd.C82_app_spawned_preempts",
    "Verif.EndToEnd.C82_app_woken_preempts",
    "Verif.System.C82_spawned_preempts",
    "Verif.System.C82_woken_preempts",
    "Verif.System.C82_runs_first",
    "Verif.System.C82_taken_at_once"
   ],
   "note": ""
  },
  {
   "property": "C83",
   "status": "partial",
   "theorems": [
    "Verif.EndToEnd.C83_app_expired_runs_first_partial",
    "Verif.Timed.C83_expired_runs_first_partial",
    "Verif.Timed.C83_taken_at_once_partial",
    "Verif.Timed.C83_priority_inversion_violated",
    "Verif.Timed.C83_low_timer_violated"
   ],
   "note": "False of the code in two cases: Delay::poll pends the timer interrupt outside the critical section of the insertion, so a low-priority task preempted in between delays the expiry of later delays of more urgent tasks (C83_priority_inversion_violated); and a software task more urgent than some hardware task is more urgent than the timer interrupt (C83_low_timer_violated). Proved, for single configurations and for accepted applications, for tasks whose priority is below that of all hardware tasks and while nobody of lower priority is preempted between insertion and pend."
  },
  {
   "property": "C84",
   "status": "proved",
   "theorems": [
    "Verif.Analysis.C84_accepted_iff",
    "Verif.Analysis.C84_slic_accepted_iff",
    "Verif.Analysis.C84_esp32c3_accepted_iff",
    "Verif.Analysis.C84_esp32c6_accepted_iff"
   ],
   "note": ""
  },
  {
   "property": "C85",
   "status": "partial",
   "theorems": [
    "Verif.Cfg.C85_source_accepted",
    "Verif.Cfg.C85_handlers",
    "Verif.Cfg.C85_software_tasks",
    "Verif.Cfg.C85_contexts",
    "Verif.Cfg.C85_ceilings",
    "Verif.Cfg.C85_initialised",
    "Verif.Cfg.C85_checks",
    "Verif.Cfg.C85_lock_exclusive",
    "Verif.Cfg.C85_unlocked_exclusive",
    "Verif.Cfg.C85_unhandled",
    "Verif.Cfg.C85_interrupts_violated",
    "Verif.Cfg.C85_bounds_violated",
    "Verif.Cfg.C85_variants_violated"
   ],
   "note": "False of the code in three respects: the interrupt of a hardware task that is switched off is configured and unmasked all the same, with no handler (C85_interrupts_violated, C85_unhandled); the types of resources and inputs that are switched off still have to be Send/Sync (C85_bounds_violated); parts that exclude each other, such as two tasks for the same interrupt, are refused (C85_variants_violated). Everything else is proved for all applications and switches (exclusion and ceilings under C40's condition on names)."
  },
  {
   "property": "C86",
   "status": "partial",
   "theorems": [
    "Verif.Names.C86_names_distinct_partial",
    "Verif.Names.C86_resource_violated",
    "Verif.Names.C86_underscore_violated",
    "Verif.Names.C86_spawn_violated",
    "Verif.Names.C86_vector_violated"
   ],
   "note": "False without conditions on names: C86_resource_violated (task resource_a declaring x, local field a_x), C86_underscore_violated (tasks a_b and a declaring c and b_c), C86_spawn_violated (software task shared_resource, shared resource spawn), C86_vector_violated (a task called like its interrupt): the application is accepted and the generated module defines a name twice, which rustc refuses. C86_names_distinct_partial proves that all names are distinct for every application whose names avoid these patterns (Plain)."
  },
  {
   "property": "C87",
   "status": "partial",
   "theorems": [
    "Verif.EndToEnd.C87_stack_bounded",
    "Verif.EndToEnd.C87_mask_stack_bounded",
    "Verif.EndToEnd.C87_esp_stack_partial",
    "Verif.EndToEnd.C87_esp_violated"
   ],
   "note": "Proved for BASEPRI and for targets that mask interrupts. False on ESP32 (C87_esp_violated): run of priority 1 sets the threshold to 1 before the runtime has left the trap, so that the same interrupt can be taken again; any number of activations that have finished their task but not returned can pile up. There the bound holds for handlers executing a task (C87_esp_stack_partial)."
  },
  {
   "property": "C88",
   "status": "proved",
   "theorems": [
    "Verif.Storage.C88_declared_iff",
    "Verif.Storage.C88_storage_fits"
   ],
   "note": "Layout rules of the Rust reference are modelled (repr(C), arrays, zero-sized aligned types); the layout of the executor itself is an arbitrary one satisfying the guarantees of the reference."
  },
  {
   "property": "C89",
   "status": "proved",
   "theorems": [
    "Verif.WaitFree.C89_signal_poll_bounded",
    "Verif.WaitFree.C89_signal_poll_never_stuck",
    "Verif.WaitFree.C89_signal_write_two_steps",
    "Verif.WaitFree.C89_signal_write_undisturbed",
    "Verif.WaitFree.C89_watch_bounded",
    "Verif.WaitFree.C89_watch_never_stuck",
    "Verif.WaitFree.C89_watch_write_two_steps",
    "Verif.WaitFree.C89_wait_until_bounded",
    "Verif.WaitFree.C89_wait_until_never_stuck",
    "Verif.WaitFree.C89_delay_bounded",
    "Verif.WaitFree.C89_delay_never_stuck",
    "Verif.WaitFree.C89_arbiter_access_completes"
   ],
   "note": "Steps are the critical sections and atomic accesses of the models of C14-C22, C25-C29. For Delay the insertion needs the documented range of instants. The timer interrupt handler is C67, the channel C73, the executor C76."
  },
  {
   "property": "C90",
   "status": "proved",
   "theorems": [
    "Verif.Build.C90_rtic_build",
    "Verif.Build.C90_same_target",
    "Verif.Build.C90_macros_build",
    "Verif.Build.C90_by_name"
   ],
   "note": "Cargo's treatment of features (one environment variable each, unified over the dependency tree) is assumed as documented."
  },
  {
   "property": "C91",
   "status": "partial",
   "theorems": [
    "Verif.EndToEnd.C91_app_not_plain_violated",
    "Verif.EndToEnd.C91_app_spawned_preempts_partial",
    "Verif.EndToEnd.C91_app_woken_preempts_partial",
    "Verif.MaskSystem.C91_inversion_violated",
    "Verif.MaskSystem.C91_exception_violated",
    "Verif.MaskSystem.C91_spawned_preempts_partial",
    "Verif.MaskSystem.C91_woken_preempts_partial",
    "Verif.MaskSystem.C91_runs_first_partial",
    "Verif.MaskSystem.C91_taken_at_once_partial",
    "Verif.MaskSystem.C91_not_plain_violated"
   ],
   "note": "False of the code if a task of lower priority is bound to an interrupt of another register than that of the task's dispatcher (lock masks register after register; possible with more than 32 interrupts) or to an exception (locks do not mask them): C91_inversion_violated, C91_exception_violated (C91_not_plain_violated, C91_app_not_plain_violated: in every system, and in every accepted application, with such a hardware task, a suitable lock of idle and a more urgent caller). Proved when all tasks of lower priority are bound to interrupts of the same register as the dispatcher (more urgent ones to anything)."
  },
  {
   "property": "C92",
   "status": "proved",
   "theorems": [
    "Verif.EndToEnd.C92_app_spawned_preempts",
    "Verif.EndToEnd.C92_app_woken_preempts",
    "Verif.EndToEnd.C92_app_hardware_preempts",
    "Verif.EspSystem.C92_spawned_preempts",
    "Verif.EspSystem.C92_woken_preempts",
    "Verif.EspSystem.C92_entered_once_per_round",
    "Verif.EspSystem.C92_hardware_preempts",
    "Verif.EspSystem.C92_runs_first",
    "Verif.EspSystem.C92_taken_at_once"
   ],
   "note": ""
  },
  {
   "property": "C93",
   "status": "partial",
   "theorems": [
    "Verif.Startup.Esp.C93_flags_mean",
    "Verif.Startup.Esp.C93_tasks_run_after_init",
    "Verif.Startup.Esp.C93_masked_during_init",
    "Verif.Startup.Esp.C93_right_task_partial",
    "Verif.Startup.Esp.C93_every_task_runs_partial",
    "Verif.Startup.Esp.C93_task_never_runs_violated"
   ],
   "note": "False of the code with more interrupt handlers than CPU lines (12 on the C6, 16 on the C3): such applications are accepted and the last tasks never run. Proved up to that number; the after-init half is proved without restriction."
  },
  {
   "property": "C94",
   "status": "proved",
   "theorems": [
    "Verif.Channel.C94_channel",
    "Verif.Signal.C94_signal",
    "Verif.Watch.C94_watch"
   ],
   "note": ""
  },
  {
   "property": "C95",
   "status": "proved",
   "theorems": [
    "Verif.EndToEnd.C95_app_signal_ready",
    "Verif.EndToEnd.C95_app_signal_returned",
    "Verif.EndToEnd.C95_app_watch_returned",
    "Verif.EndToEnd.C95_app_recv_ready",
    "Verif.EndToEnd.C95_app_recv_returned",
    "Verif.EndToEnd.C95_app_send_ready",
    "Verif.EndToEnd.C95_app_access_ready",
    "Verif.Sync.C95_signal_ready",
    "Verif.Sync.C95_signal_returned",
    "Verif.Sync.C95_watch_returned",
    "Verif.Sync.C95_recv_ready",
    "Verif.Sync.C95_recv_returned",
    "Verif.Sync.C95_send_ready",
    "Verif.Sync.C95_access_ready",
    "Verif.Sync.C95_runs_first"
   ],
   "note": ""
  },
  {
   "property": "C96",
   "status": "proved",
   "theorems": [
    "Verif.Rcc.C96_same_iff",
    "Verif.Rcc.C96_streq",
    "Verif.Rcc.C96_lookup_sound",
    "Verif.Rcc.C96_lookup_iff",
    "Verif.Rcc.C96_timer",
    "Verif.Rcc.C96_timer_compiles",
    "Verif.Rcc.C96_started",
    "Verif.Rcc.C96_started_noReset",
    "Verif.Rcc.C96_completes",
    "Verif.Rcc.C96_not_atomic"
   ],
   "note": ""
  },
  {
   "property": "C97",
   "status": "proved",
   "theorems": [
    "Verif.Signature.C97_functions_kept",
    "Verif.Signature.C97_software_signature",
    "Verif.Signature.C97_hardware_signature",
    "Verif.Signature.C97_idle_signature",
    "Verif.Signature.C97_init_signature",
    "Verif.Signature.C97_module_accepted_iff",
    "Verif.Signature.C97_module_code",
    "Verif.Signature.C97_extern_as_module",
    "Verif.Signature.C97_extern_returning_not_static"
   ],
   "note": ""
  },
  {
   "property": "C98",
   "status": "partial",
   "theorems": [
    "Verif.Escape.C98_references_never_alias_partial",
    "Verif.Escape.C98_static_context_iff_diverges",
    "Verif.Escape.C98_static_alias_violated"
   ],
   "note": "Proved for every execution except that an extern task declared `-> !` may return a type for which the user implemented `From` into `Infallible`: `assert_task_diverges` accepts it, and two `&'static mut` to one resource exist (C98_static_alias_violated)."
  },
  {
   "property": "C99",
   "status": "partial",
   "theorems": [
    "Verif.Escape.C99_arguments_outlive_task_partial",
    "Verif.Escape.C99_arguments_dangle_violated"
   ],
   "note": "Proved for all tasks except those of `extern` blocks that return and take references: their future is transmuted before it is given to the executor, so that the bound `'static` is not checked (C99_arguments_dangle_violated)."
  },
  {
   "property": "C100",
   "status": "proved",
   "theorems": [
    "Verif.Grammar.C100_task_arguments",
    "Verif.Grammar.C100_idle_arguments",
    "Verif.Grammar.C100_init_arguments",
    "Verif.Grammar.C100_app_arguments",
    "Verif.Grammar.C100_order_irrelevant",
    "Verif.Grammar.C100_app_order_irrelevant",
    "Verif.Grammar.C100_documented_task",
    "Verif.Grammar.C100_documented_idle_init_app",
    "Verif.Grammar.C100_agrees_with_analysis"
   ],
   "note": "The parsers of the crate syn for paths, types and expressions are arbitrary functions that consume tokens; for the documented forms it is assumed that they read an identifier as that identifier."
  },
  {
   "property": "C101",
   "status": "partial",
   "theorems": [
    "Verif.Front.C101_name_value_ignored_violated",
    "Verif.Grammar.C101_trailing_comma_violated",
    "Verif.Grammar.C101_missing_comma_violated",
    "Verif.Grammar.C101_attributes_dropped_violated",
    "Verif.Grammar.C101_local_task_ignored_violated",
    "Verif.Grammar.C101_entries_kept_partial"
   ],
   "note": "False of the code: a comma at the end is accepted for tasks and #[app], refused for idle (and init); the comma after a declared local resource may be missing; attributes of the last local resource, #[cfg] on local resources that are not declared in place and all attributes on shared resources are ignored; local_task is ignored on hardware tasks; the value in #[task = value] (also idle, init) is ignored. Proved: what is kept of every entry of a local list."
  },
  {
   "property": "C102",
   "status": "proved",
   "theorems": [
    "Verif.Front.C102_accepted_iff",
    "Verif.Front.C102_code",
    "Verif.Front.C102_mock_app",
    "Verif.Front.C102_esp_code",
    "Verif.Front.C102_slic_code",
    "Verif.Front.C102_esp32c3_accepted_iff",
    "Verif.Front.C102_esp32c6_accepted_iff",
    "Verif.Front.C102_slic_accepted_iff"
   ],
   "note": "Composition of C100, C97 and C84. All programs of rtic-macros/ui and rtic/ui are refused in the model with the messages of their .stderr files, all of examples/lm3s6965 are accepted (Front/Ui.lean, Front/Examples.lean, generated by tools/ui.py). On ESP32-C6 for up to twelve interrupts, none of them both a dispatcher and bound (see C70)."
  },
  {
   "property": "C103",
   "status": "partial",
   "theorems": [
    "Verif.EndToEnd.C103_app_signal_ready_partial",
    "Verif.EndToEnd.C103_app_signal_returned_partial",
    "Verif.EndToEnd.C103_app_watch_returned_partial",
    "Verif.EndToEnd.C103_app_recv_ready_partial",
    "Verif.EndToEnd.C103_app_recv_returned_partial",
    "Verif.EndToEnd.C103_app_send_ready_partial",
    "Verif.EndToEnd.C103_app_access_ready_partial",
    "Verif.MaskSync.C103_signal_ready_partial",
    "Verif.MaskSync.C103_signal_returned_partial",
    "Verif.MaskSync.C103_watch_returned_partial",
    "Verif.MaskSync.C103_recv_ready_partial",
    "Verif.MaskSync.C103_recv_returned_partial",
    "Verif.MaskSync.C103_send_ready_partial",
    "Verif.MaskSync.C103_access_ready_partial",
    "Verif.MaskSync.C103_runs_first_partial",
    "Verif.MaskSync.C103_inversion_violated"
   ],
   "note": "False if a task of lower priority is bound to an interrupt of another register (C103_inversion_violated) or to an exception (C91_exception_violated), for the reason of C91. Proved when all tasks of lower priority are bound to interrupts of the same register as the dispatcher of the task in question."
  },
  {
   "property": "C104",
   "status": "proved",
   "theorems": [
    "Verif.EndToEnd.C104_app_signal_ready",
    "Verif.EndToEnd.C104_app_signal_returned",
    "Verif.EndToEnd.C104_app_watch_returned",
    "Verif.EndToEnd.C104_app_recv_ready",
    "Verif.EndToEnd.C104_app_recv_returned",
    "Verif.EndToEnd.C104_app_send_ready",
    "Verif.EndToEnd.C104_app_access_ready",
    "Verif.EspSync.C104_signal_ready",
    "Verif.EspSync.C104_signal_returned",
    "Verif.EspSync.C104_watch_returned",
    "Verif.EspSync.C104_recv_ready",
    "Verif.EspSync.C104_recv_returned",
    "Verif.EspSync.C104_send_ready",
    "Verif.EspSync.C104_access_ready",
    "Verif.EspSync.C104_runs_first"
   ],
   "note": "For t0 ≤ 1 (threshold at startup) and at most as many handlers as the chip has interrupt lines (C93)."
  },
  {
   "property": "C105",
   "status": "partial",
   "theorems": [
    "Verif.EndToEnd.C105_app_expired_runs_first_partial",
    "Verif.MaskTimed.C105_expired_runs_first_partial",
    "Verif.MaskTimed.C105_taken_at_once_partial",
    "Verif.MaskTimed.C105_priority_inversion_violated",
    "Verif.MaskTimed.C105_low_timer_violated"
   ],
   "note": "False of the code for the reasons of C83 (C105_priority_inversion_violated, C105_low_timer_violated) and, with tasks of lower priority bound to interrupts of other registers or exceptions, of C91. Proved, for single configurations and for accepted applications, when all tasks of lower priority are bound to interrupts of the same register as the dispatcher of the task, for tasks whose priority is below that of all hardware tasks and while nobody of lower priority is preempted between insertion and pend."
  },
  {
   "property": "C106",
   "status": "partial",
   "theorems": [
    "Verif.EndToEnd.C106_app_expired_runs_first_partial",
    "Verif.EspTimed.C106_expired_runs_first_partial",
    "Verif.EspTimed.C106_taken_at_once_partial",
    "Verif.EspTimed.C106_pend_possible",
    "Verif.EspTimed.C106_priority_inversion_violated"
   ],
   "note": "False of the code for the first reason of C83 (C106_priority_inversion_violated); the second does not arise, since the timer has the highest priority. Proved, for single configurations and for accepted applications, while nobody of lower priority is preempted between insertion and pend_interrupt. Delays are not polled with interrupts disabled (pend_interrupt would enable them)."
  },
  {
   "property": "C107",
   "status": "partial",
   "theorems": [
    "Verif.Analysis.C107_line_free_partial",
    "Verif.Analysis.C107_line_violated"
   ],
   "note": "False of the code for exactly 16 handlers on the C3 and 12 on the C6 (C107_line_violated; such an application does not link with the monotonic). Proved for fewer."
  },
  {
   "property": "C108",
   "status": "partial",
   "theorems": [
    "Verif.TimerStart.C108_start_known_state",
    "Verif.TimerStart.C108_start_known_state_partial",
    "Verif.TimerStart.C108_delay_interrupt",
    "Verif.TimerStart.C108_clock_exact",
    "Verif.TimerStart.C108_rtcc_running_violated",
    "Verif.TimerStart.C108_rtcc_flag_violated",
    "Verif.TimerStart.C108_nrf_rate_violated",
    "Verif.TimerStart.C108_nrf_timer_mode_violated"
   ],
   "note": "Proved for every previous state of STM32 timers, Silabs TIMER and i.MX RT GPT (C108_start_known_state), with the resulting clock exact (C108_clock_exact). Missing for the other three: the RTCC start neither stops and clears the counter nor clears flags (panic at the first overflow, or a jump by 2^32 ticks); nRF RTC and TIMER do not stop a running counter, so the prescaler write is without effect, and the TIMER keeps MODE and SHORTS. For these the theorem needs the stated previous state. LETIMER is not modelled here (C57). C108_delay_interrupt: for every timer and any previous state the interrupt of the delay compare register is enabled after the start exactly where no `enable_timer` does it later."
  },
  {
   "property": "C109",
   "status": "partial",
   "theorems": [
    "Verif.TimerStart.Systick.C109_started",
    "Verif.TimerStart.Systick.C109_rate",
    "Verif.TimerStart.Systick.C109_first_tick_partial",
    "Verif.TimerStart.Systick.C109_first_tick_violated"
   ],
   "note": "Proved: rate after the first tick, nothing counted from before the start; the first tick in time only if the current value is at most reload + 1: _start does not clear the current value, so the first tick may come up to 2^24 - 1 cycles late (C109_first_tick_violated)."
  },
  {
   "property": "C110",
   "status": "partial",
   "theorems": [
    "Verif.TimerStart.Ack.C110_others_kept_partial",
    "Verif.TimerStart.Ack.C110_cleared",
    "Verif.TimerStart.Ack.C110_rp_violated"
   ],
   "note": "Proved for STM32, i.MX RT, Silabs, ESP32 and nRF; false on RP2040 and RP235x, where INTR (write one to clear) is accessed by modify: pending flags of alarms 1 to 3 are lost (C110_rp_violated). The flag itself is cleared on all chips."
  },
  {
   "property": "C111",
   "status": "proved",
   "theorems": [
    "Verif.Race.Arbiter.C111_arbiter_race_free",
    "Verif.Race.Channel.C111_channel_race_free",
    "Verif.Race.Signal.C111_signal_race_free",
    "Verif.Race.Watch.C111_watch_race_free",
    "Verif.Race.WaitUntil.C111_wait_until_race_free"
   ],
   "note": "Happens-before is program order plus critical sections (one lock) on the executions of the machines of C08-C27; loads of atomics read the latest store (modification order = execution order), so weak-memory reorderings of relaxed atomics are outside the model."
  },
  {
   "property": "C112",
   "status": "partial",
   "theorems": [
    "Verif.Race.Timer.C112_timer_race_free_partial",
    "Verif.Race.Timer.C112_fixed_race_free_partial",
    "Verif.Race.Timer.C112_drop_violated"
   ],
   "note": "False on several cores: Delay::drop reads was_popped (relaxed, no critical section) and lets the memory of the link end while the handler may still be cloning the waker inside its critical section (C112_drop_violated). Proved if the thread has passed a critical section since the pop, in particular if drop took one (C112_fixed_race_free_partial). On one core C81 applies."
  },
  {
   "property": "C113",
   "status": "partial",
   "theorems": [
    "Verif.Race.Executor.C113_executor_race_free_partial",
    "Verif.Race.Executor.C113_one_core",
    "Verif.Race.Executor.C113_late_waker_violated"
   ],
   "note": "Proved if wakers set the flag only between first poll and completion of the instance they were made for and no flag is left over at a spawn; false otherwise on several cores: the flag store of a waker of an earlier instance hides the release store of spawn (C113_late_waker_violated). On one core there is no race at all."
  },
  {
   "property": "C114",
   "status": "partial",
   "theorems": [
    "Verif.PendCall.C114_pend_bit",
    "Verif.PendCall.C114_call_violated",
    "Verif.PendCall.C114_call_partial",
    "Verif.PendCall.C114_disabled_partial"
   ],
   "note": "False on the ESP32-C3/C6: pend_interrupt ends with riscv::interrupt::enable(), whatever the state before (C114_call_violated: a task starts inside init, and inside a critical section). Proved for all other backends, and for the ESP32 as long as delays that become the earliest are polled with interrupts enabled."
  },
  {
   "property": "C115",
   "status": "proved",
   "theorems": [
    "Verif.MakeChannel.C115_at_most_once",
    "Verif.MakeChannel.C115_later_calls_panic",
    "Verif.MakeChannel.C115_panic_justified"
   ],
   "note": ""
  },
  {
   "property": "C116",
   "status": "proved",
   "theorems": [
    "Verif.Systimer.Arm.C116_no_panic",
    "Verif.Systimer.Arm.C116_armed",
    "Verif.Systimer.Arm.C116_never_mixed",
    "Verif.Systimer.Arm.C116_started",
    "Verif.Systimer.Arm.C116_reset_values_matter"
   ],
   "note": ""
  }
 ]
}