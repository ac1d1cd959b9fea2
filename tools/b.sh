#!/bin/sh
# build a module, show the beginning of each error
cd /verif/lean && lake build "$@" 2>&1 | grep -v '^✔\|^Build\|^trace\|^ℹ' | head -${LINES_MAX:-3000} | cut -c1-400
